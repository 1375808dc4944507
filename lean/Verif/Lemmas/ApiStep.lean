import Verif.Lemmas.ApiRun
/-! # The invariant is kept by every call, continued -/
namespace Verif
namespace App
variable {core : Core}

theorem Idle.of {s : St} (h : Js core s) (hf : ∀ k, s.fut k = .invalid) (h1 : s.mode ≠ .finalize) (h2 : s.mode ≠ .error) (h3 : s.mode ≠ .pendingFinalize) :
    Idle core s := ⟨h, hf, J.open_ h h1 h2 h3⟩

/-- In a mode that waits for nothing. -/
theorem Idle.ofMode {s : St} (h : Js core s) (h0 : ∀ k : Slot, s.mode ≠ k.pend) (h1 : s.mode ≠ .finalize) (h2 : s.mode ≠ .error) : Idle core s :=
  Idle.of h (J.none h h0) h1 h2 (h0 .finalize)

theorem tri_enteringInit (r : Result) :
    Tri (fun s => Idle core s ∧ HadInit core s.calls ∧ InInit core s.calls) (enteringInit core r)
      (fun _ s => Idle core s ∧ HadInit core s.calls) (fun s => Idle core s) := by
  unfold enteringInit
  refine Tri.bind (R := fun _ s => Idle core s ∧ HadInit core s.calls) (tri_updateMode ?_) fun _ => ?_
  · rintro s ⟨h, hi, hi'⟩
    exact ⟨h.toMode (fun _ => ⟨hi, hi'⟩) (by simp) (by simp) (by simp), by rw [(updateMode_snd _ s).2.2.1]; exact hi⟩
  refine Tri.bind (R := fun _ s => Idle core s ∧ HadInit core s.calls) (Tri.ask ?_ ?_) fun _ => ?_
  · intro s h _ _; exact h.1.plain rfl
  · intro s h _ _ _ _; exact ⟨h.1.plain rfl, h.2.mono _⟩
  refine Tri.bind (R := fun _ s => Idle core s ∧ HadInit core s.calls) (Tri.set fun s h => ⟨h.1.same rfl rfl rfl, h.2⟩) fun _ => ?_
  refine Tri.bind (R := fun _ s => Idle core s ∧ HadInit core s.calls) ?_ fun _ => tri_note fun s h => ⟨h.1.same rfl rfl rfl, h.2⟩
  split
  · exact tri_note fun s h => ⟨h.1.same rfl rfl rfl, h.2⟩
  · exact Tri.pure fun _ h => h

theorem tri_enteringExec (t : Time) (r : Result) :
    Tri (fun s => Idle core s ∧ HadInit core s.calls ∧ (r = .nextStep → HadExec core s.calls) ∧ (r = .iterating → InInit core s.calls) ∧
        (r = .halted → Ended core s.calls)) (enteringExec core t r) (fun _ s => Idle core s) (fun s => Idle core s) := by
  have keep : ∀ n : Note, Tri (fun s => Idle core s) (note n) (fun _ s => Idle core s) (fun s => Idle core s) := fun n =>
    tri_note fun s h => h.same rfl rfl rfl
  unfold enteringExec
  cases r with
  | nextStep =>
    refine Tri.bind (R := fun _ s => Idle core s) (tri_updateMode ?_) fun _ => ?_
    · rintro s ⟨h, _, h2, _⟩
      exact h.toMode (by simp) (by simp) (fun _ => h2 rfl) (by simp)
    refine Tri.bind (R := fun _ s => Idle core s) (Tri.set fun s h => h.same rfl rfl rfl) fun _ => ?_
    exact Tri.bind (keep _) fun _ => Tri.bind (keep _) fun _ => keep _
  | iterating =>
    refine Tri.bind (R := fun _ s => Idle core s ∧ HadInit core s.calls ∧ InInit core s.calls) (Tri.set ?_) fun _ => ?_
    · rintro s ⟨h, hi, _, h3, _⟩; exact ⟨h.same rfl rfl rfl, hi, h3 rfl⟩
    exact Tri.bind (tri_enteringInit _) fun _ => Tri.pre (keep _) (fun s h => h.1)
  | error =>
    refine tri_updateMode ?_
    rintro s ⟨h, _⟩
    exact h.toMode (by simp) (by simp) (by simp) (by simp)
  | halted =>
    refine tri_updateMode ?_
    rintro s ⟨h, _, _, _, h4⟩
    exact h.toMode (by simp) (fun _ => h4 rfl) (by simp) (by simp)

theorem tri_lock {P : St → Prop} {E : St → Prop} (h : ∀ s, P s → E s) : Tri P lockAsync (fun _ => P) E := by
  intro s hs
  unfold lockAsync
  by_cases e : s.single = true
  · simp only [if_pos e]; exact h s hs
  · simp only [if_neg e]; exact hs

theorem toError {s : St} (h : Idle core s) : Js core (updateMode .error s).2 :=
  (h.toMode (by simp) (by simp) (by simp) (by simp)).inv

theorem tri_completePendingInit : Tri (fun s => Js core s ∧ s.mode = .pendingInit) (completePendingInit core)
    (fun _ s => Idle core s ∧ HadInit core s.calls) (Js core) := by
  unfold completePendingInit
  refine Tri.bind (tri_lock fun s h => h.1) fun _ => ?_
  refine Tri.rethrow (E' := fun s => Idle core s) ?_ (fun s h => h.inv) (fun s h => toError h)
  refine Tri.bind (R := fun v s => Idle core s ∧ HadInit core s.calls ∧ (v = .flag true → InInit core s.calls)) (Tri.post (tri_take .init) ?_ ?_) fun v => ?_
  · rintro v s ⟨h1, h2, h3, h4⟩
    exact ⟨Idle.of h1 h3 (by rw [h2]; simp [Slot.pend]) (by rw [h2]; simp [Slot.pend]) (by rw [h2]; simp [Slot.pend]), h4.1, h4.2⟩
  · rintro s ⟨h1, h2, h3⟩
    exact Idle.of h1 h3 (by rw [h2]; simp [Slot.pend]) (by rw [h2]; simp [Slot.pend]) (by rw [h2]; simp [Slot.pend])
  refine Tri.bind (R := fun _ s => Idle core s ∧ HadInit core s.calls) ?_ fun _ => Tri.pure fun s h => h
  split
  · next e => exact Tri.pre (tri_enteringInit _) (fun s h => ⟨h.1, h.2.1, h.2.2 e⟩)
  · exact Tri.pure fun s h => ⟨h.1, h.2.1⟩

theorem tri_potIdle : Tri (fun s => Idle core s) (potSequence core) (fun _ s => Idle core s) (fun s => Idle core s) := by
  apply tri_pot
  · intro s s' c h hc e1 e2 e3
    have := h.plain hc
    exact Idle.same this e1 e2 e3
  · intro s s' h e1 e2 e3; exact h.same e1 e2 e3

theorem tri_enterInitFromStart : Tri (fun s => Js core s ∧ s.mode = .startup) (enterInitFromStart core)
    (fun _ s => Idle core s ∧ HadInit core s.calls) (Js core) := by
  unfold enterInitFromStart
  refine Tri.rethrow (E' := fun s => Idle core s) ?_ (fun s h => h.inv) (fun s h => toError h)
  refine Tri.bind (Tri.pre tri_potIdle ?_) fun _ => ?_
  · rintro s ⟨h, hm⟩
    exact Idle.ofMode h (by intro k; rw [hm]; cases k <;> simp [Slot.pend]) (by rw [hm]; simp) (by rw [hm]; simp)
  refine Tri.bind (R := fun a s => Idle core s ∧ HadInit core s.calls ∧ (a.1 = true → InInit core s.calls)) (Tri.ask ?_ ?_) fun a => ?_
  · intro s h _ _; exact h.plain rfl
  · intro s h b t r e
    refine ⟨h.plain rfl, ⟨_, _, _, _, answered_last e⟩, ?_⟩
    intro eb
    dsimp only at eb
    subst eb
    exact .inl ⟨_, _, _, answered_last e⟩
  refine Tri.bind (R := fun _ s => Idle core s ∧ HadInit core s.calls) ?_ fun _ => Tri.pure fun s h => h
  split
  · next e => exact Tri.pre (tri_enteringInit _) (fun s h => ⟨h.1, h.2.1, h.2.2 e⟩)
  · exact Tri.pure fun s h => ⟨h.1, h.2.1⟩

/-- What `enterInitializingMode` reaches. -/
theorem tri_enterInit : Tri (fun s => Js core s) (enterInitializingMode core)
    (fun _ s => Idle core s ∧ HadInit core s.calls) (Js core) := by
  unfold enterInitializingMode
  refine Tri.get fun a => ?_
  split
  · next e => exact Tri.pre tri_enterInitFromStart (fun s h => ⟨h.1, by rw [h.2]; exact e⟩)
  · next e =>
    split
    · intro s h; exact h.1
    · exact Tri.pre tri_completePendingInit (fun s h => ⟨h.1, by rw [h.2]; exact e⟩)
  · next e =>
    refine Tri.pure ?_
    rintro s ⟨h, rfl⟩
    exact ⟨Idle.ofMode h (by intro k; rw [e]; cases k <;> simp [Slot.pend]) (by rw [e]; simp) (by rw [e]; simp), (h.init e).1⟩
  · exact Tri.throw fun s h => h.1

theorem tri_enterInitComplete : Tri (fun s => Js core s) (enterInitializingModeComplete core)
    (fun _ s => Idle core s ∧ HadInit core s.calls) (Js core) := by
  unfold enterInitializingModeComplete
  refine Tri.get fun a => ?_
  split
  · exact Tri.pre tri_enterInit (fun s h => h.1)
  · split
    · next e => exact Tri.pre tri_completePendingInit (fun s h => ⟨h.1, by rw [h.2]; exact e⟩)
    · next e =>
      refine Tri.pure ?_
      rintro s ⟨h, rfl⟩
      exact ⟨Idle.ofMode h (by intro k; rw [e]; cases k <;> simp [Slot.pend]) (by rw [e]; simp) (by rw [e]; simp), (h.init e).1⟩
    · exact Tri.pre tri_enterInit (fun s h => h.1)
    · exact Tri.throw fun s h => h.1

/-- A thread is started. -/
theorem tri_launch (k : Slot) (j : Job) (hj : k.fits j) :
    Tri (fun s => Idle core s ∧ s.mode = k.pend ∧ (∀ it, j = .enterExec it → HadInit core s.calls)) (launch k j) (fun _ => Js core) (Js core) := by
  unfold launch setFut
  refine Tri.set ?_
  rintro s ⟨h, hm, hb⟩
  have := J.launch h.inv h.free k j hj hb (fun e => h.inv.exec (by rw [hm]; rcases e with e | e <;> simp [e, Slot.pend])) h.open_
  unfold Js
  dsimp only
  rw [hm]
  exact this

theorem tri_enterInitAsync : Tri (fun s => Js core s) enterInitializingModeAsync (fun _ => Js core) (Js core) := by
  unfold enterInitializingModeAsync
  refine Tri.get fun a => ?_
  split
  · exact Tri.throw fun s h => h.1
  · split
    · next e =>
      refine Tri.bind (R := fun _ s => Idle core s ∧ s.mode = Slot.init.pend) (Tri.set ?_) fun _ => ?_
      · rintro s ⟨h, rfl⟩
        have hi := Idle.ofMode h (by intro k; rw [e]; cases k <;> simp [Slot.pend]) (by rw [e]; simp) (by rw [e]; simp)
        exact ⟨⟨J.mode hi.inv hi.free (by simp) (by simp) (by simp) (by simp) (fun x => absurd x hi.open_), hi.free, hi.open_⟩, rfl⟩
      exact Tri.bind (Tri.pre (tri_launch .init .enterInit rfl) (fun s h => ⟨h.1, h.2, by intro it e; cases e⟩)) fun _ => Tri.pure fun s h => h
    · exact Tri.pure fun s h => h.1
    · exact Tri.pure fun s h => h.1
    · exact Tri.throw fun s h => h.1

theorem tri_iterInitComplete : Tri (fun s => Js core s) (App.iterInitComplete core) (fun _ => Js core) (Js core) := by
  unfold App.iterInitComplete
  refine Tri.get fun a => ?_
  split
  · next e =>
    refine Tri.bind (tri_lock fun s h => h.1) fun _ => ?_
    have take := tri_take (core := core) .iterInit
    refine Tri.rethrow (E' := fun s => Idle core s) ?_ (fun s h => h.inv) (fun s h => toError h)
    refine Tri.bind (R := fun v s => Idle core s) (Tri.post (Tri.pre take ?_) ?_ ?_) fun v => ?_
    · rintro s ⟨h, rfl⟩; exact ⟨h, e⟩
    · rintro v s ⟨h1, h2, h3, h4⟩
      exact Idle.of h1 h3 (by rw [h2]; simp [Slot.pend]) (by rw [h2]; simp [Slot.pend]) (by rw [h2]; simp [Slot.pend])
    · rintro s ⟨h1, h2, h3⟩
      exact Idle.of h1 h3 (by rw [h2]; simp [Slot.pend]) (by rw [h2]; simp [Slot.pend]) (by rw [h2]; simp [Slot.pend])
    refine Tri.bind (R := fun _ s => Js core s) (tri_updateMode fun s h => ?_) fun _ => Tri.pure fun s h => h
    exact (h.toMode (by simp) (by simp) (by simp) (by simp)).inv
  · exact Tri.pure fun s h => h.1
  · exact Tri.throw fun s h => h.1

theorem tri_iterInit : Tri (fun s => Js core s) (App.iterInit core) (fun _ => Js core) (Js core) := by
  unfold App.iterInit
  refine Tri.get fun a => ?_
  split
  · next e =>
    refine Tri.rethrow (E' := fun s => Idle core s) ?_ (fun s h => h.inv) (fun s h => toError h)
    have ask : ∀ c : Call, c.plain = true → Tri (fun s => Idle core s) (App.ask core c) (fun _ s => Idle core s) (fun s => Idle core s) := fun c hc =>
      Tri.ask (fun s h _ _ => h.plain hc) (fun s h _ _ _ _ => h.plain hc)
    have pot : ∀ n : Nat, Tri (fun s => Idle core s) (App.set fun s => { s with potSeq := n }) (fun _ s => Idle core s) (fun s => Idle core s) := fun n =>
      Tri.set (fun s h => h.same rfl rfl rfl)
    refine Tri.bind (R := fun _ s => Idle core s) (Tri.pre (P' := fun s => Idle core s) ?_ ?_) fun _ => Tri.pure fun s h => h.inv
    · split
      · exact Tri.bind (ask _ rfl) fun _ => Tri.bind (ask _ rfl) fun _ => pot _
      · split
        · exact Tri.bind (ask _ rfl) fun _ => Tri.bind (ask _ rfl) fun _ => pot _
        · exact Tri.bind (ask _ rfl) fun _ => Tri.pure fun _ h => h
    · rintro s ⟨h, rfl⟩
      exact Idle.ofMode h (by intro k; rw [e]; cases k <;> simp [Slot.pend]) (by rw [e]; simp) (by rw [e]; simp)
  · exact Tri.pre tri_iterInitComplete (fun s h => h.1)
  · exact Tri.throw fun s h => h.1

theorem tri_iterInitAsync : Tri (fun s => Js core s) App.iterInitAsync (fun _ => Js core) (Js core) := by
  unfold App.iterInitAsync
  refine Tri.get fun a => ?_
  split
  · next e =>
    refine Tri.bind (tri_lock fun s h => h.1) fun _ => ?_
    refine Tri.bind (R := fun _ s => Idle core s ∧ s.mode = Slot.iterInit.pend) (Tri.set ?_) fun _ => ?_
    · rintro s ⟨h, rfl⟩
      have hi := Idle.ofMode h (by intro k; rw [e]; cases k <;> simp [Slot.pend]) (by rw [e]; simp) (by rw [e]; simp)
      exact ⟨⟨J.mode hi.inv hi.free (by simp) (by simp) (by simp) (by simp) (fun x => absurd x hi.open_), hi.free, hi.open_⟩, rfl⟩
    exact Tri.bind (Tri.pre (tri_launch .iterInit .iterInit rfl) (fun s h => ⟨h.1, h.2, by intro it e; cases e⟩)) fun _ => Tri.pure fun s h => h
  · exact Tri.pure fun s h => h.1
  · exact Tri.throw fun s h => h.1

/-! Time requests. -/

theorem tri_updateTime (new old : Time) (it : Bool) : Tri (fun s => Idle core s ∧ (new ≥ cTerm → Ended core s.calls)) (updateSimulationTime new old it)
    (fun _ s => Idle core s) (fun s => Idle core s) := by
  unfold updateSimulationTime
  let R : Unit → St → Prop := fun _ s => Idle core s ∧ (new ≥ cTerm → Ended core s.calls)
  refine Tri.bind (R := R) (Tri.set fun s h => ⟨h.1.same rfl rfl rfl, h.2⟩) fun _ => ?_
  refine Tri.bind (R := R) (tri_note fun s h => ⟨h.1.same rfl rfl rfl, h.2⟩) fun _ => ?_
  refine Tri.bind (R := R) (tri_note fun s h => ⟨h.1.same rfl rfl rfl, h.2⟩) fun _ => ?_
  split
  · next e => exact tri_updateMode fun s h => h.1.toMode (by simp) (fun _ => h.2 e) (by simp) (by simp)
  · exact Tri.pure fun s h => h.1

theorem tri_post (new : Time) (it : Bool) : Tri (fun s => Idle core s ∧ (new ≥ cTerm → Ended core s.calls)) (postTimeRequest new it)
    (fun _ s => Idle core s) (fun s => Idle core s) := by
  unfold postTimeRequest
  refine Tri.get fun a => Tri.pre ?_ (fun s h => h.1)
  exact Tri.bind (tri_updateTime _ _ _) fun _ => tri_note fun s h => h.same rfl rfl rfl

/-- After a time request no calls are made. -/
theorem tri_post_calls {cs : List Call} (new : Time) (it : Bool) : Tri (fun s => s.calls = cs) (postTimeRequest new it)
    (fun _ s => s.calls = cs) (fun s => s.calls = cs) := by
  unfold postTimeRequest updateSimulationTime
  refine Tri.get fun a => Tri.pre ?_ (fun s h => h.1)
  refine Tri.bind (R := fun _ s => s.calls = cs) ?_ fun _ => tri_note fun s h => h
  refine Tri.bind (R := fun _ s => s.calls = cs) (Tri.set fun s h => h) fun _ => ?_
  refine Tri.bind (R := fun _ s => s.calls = cs) (tri_note fun s h => h) fun _ => ?_
  refine Tri.bind (R := fun _ s => s.calls = cs) (tri_note fun s h => h) fun _ => ?_
  split
  · exact tri_updateMode fun s h => by rw [(updateMode_snd _ s).2.2.1]; exact h
  · exact Tri.pure fun s h => h

theorem tri_pre (t : Time) (it : Bool) (P : St → Prop) (hP : ∀ s n, P s → P { s with notes := n }) {E : St → Prop} : Tri P (preTimeRequest t it) (fun _ => P) E := by
  unfold preTimeRequest
  refine Tri.get fun a => Tri.pre ?_ (fun s h => h.1)
  exact tri_note fun s h => hP s _ h

/-- A piece that neither looks at the mode nor changes it. -/
def Blind (x : Act α) : Prop := ∀ s m, x { s with mode := m } = ((x s).1, { (x s).2 with mode := m })

theorem Blind.bind {x : Act α} {f : α → Act β} (h1 : Blind x) (h2 : ∀ a, Blind (f a)) : Blind (x >>= f) := by
  intro s m
  simp only [bind_eq, Act.bind]
  rw [h1 s m]
  generalize x s = r
  obtain ⟨o, s'⟩ := r
  cases o with
  | ok a => exact h2 a s' m
  | _ => rfl
theorem Blind.pure (a : α) : Blind (pure a : Act α) := fun _ _ => rfl
theorem Blind.set {f : St → St} (h : ∀ s m, f { s with mode := m } = { f s with mode := m }) : Blind (App.set f) := fun s m => by
  unfold App.set; dsimp only; rw [h s m]
theorem Blind.note (n : Note) : Blind (note n) := Blind.set fun _ _ => rfl
theorem Blind.ask (c : Call) : Blind (App.ask core c) := by
  intro s m
  unfold App.ask
  dsimp only
  cases core (s.calls ++ [c]) <;> rfl
theorem Blind.get {f : St → Act β} (h : ∀ s, Blind (f s)) (h' : ∀ s m, f { s with mode := m } = f s) : Blind (App.get >>= f) := by
  intro s m
  show f { s with mode := m } { s with mode := m } = ((f s s).1, { (f s s).2 with mode := m })
  rw [h' s m]
  exact h s s m
theorem Blind.stage (n : Nat) {x : Act Unit} (h : Blind x) : Blind (potStage n x) := by
  unfold potStage
  refine Blind.get (fun s => ?_) (fun _ _ => rfl)
  split
  · exact Blind.bind h fun _ => Blind.set fun _ _ => rfl
  · exact Blind.pure _
theorem Blind.pot : Blind (potSequence core) := by
  unfold potSequence
  refine Blind.get (fun s => ?_) (fun _ _ => rfl)
  split
  · refine Blind.bind (Blind.stage _ (Blind.bind (Blind.ask _) fun _ => Blind.pure _)) fun _ => ?_
    refine Blind.bind (Blind.stage _ (Blind.bind (Blind.ask _) fun _ => Blind.pure _)) fun _ => ?_
    exact Blind.stage _ (Blind.bind (Blind.ask _) fun _ => Blind.bind (Blind.ask _) fun _ => Blind.pure _)
  · exact Blind.pure _
theorem Blind.job (j : Job) : Blind (runJob core j) := by
  cases j <;> unfold runJob
  · exact Blind.bind Blind.pot fun _ => Blind.bind (Blind.ask _) fun _ => Blind.pure _
  · refine Blind.bind Blind.pot fun _ => Blind.bind (Blind.ask _) fun _ => Blind.bind (Blind.ask _) fun _ => ?_
    refine Blind.bind (Blind.set fun _ _ => rfl) fun _ => Blind.bind (Blind.note _) fun _ => ?_
    exact Blind.bind (Blind.ask _) fun _ => Blind.pure _
  all_goals exact Blind.bind (Blind.ask _) fun _ => Blind.pure _
theorem Blind.work (k : Slot) : Blind (work core k) := by
  intro s m
  unfold App.work
  dsimp only
  cases s.fut k with
  | todo j =>
    dsimp only
    rw [Blind.job j s m]
    rfl
  | _ => rfl
theorem Blind.take (k : Slot) : Blind (take core k) := by
  unfold App.take
  refine Blind.bind (Blind.work k) fun _ => Blind.get (fun s => ?_) (fun _ _ => rfl)
  cases s.fut k with
  | done r => exact Blind.bind (Blind.set fun _ _ => rfl) fun _ => fun s m => rfl
  | _ => exact fun s m => rfl

/-- The mode is changed, then a result is taken. -/
theorem tri_takeExec (k : Slot) (hk : k = .time ∨ k = .iterTime) :
    Tri (fun s => Js core s ∧ s.mode = k.pend) (do App.set (fun s => { s with mode := .executing }); take core k)
      (fun v s' => Idle core s' ∧ Fact core s'.calls k v) (fun s' => Idle core s') := by
  rintro s ⟨h, hm⟩
  have ht := tri_take (core := core) k s ⟨h, hm⟩
  have e : (do App.set (fun s => { s with mode := .executing }); take core k : Act Val) s = ((take core k s).1, { (take core k s).2 with mode := .executing }) :=
    Blind.take k s .executing
  rw [e]
  generalize take core k s = x at ht
  obtain ⟨o, s'⟩ := x
  have conv : ∀ s' : St, Js core s' → s'.mode = k.pend → (∀ i, s'.fut i = .invalid) → Idle core { s' with mode := .executing } := by
    intro s' h1 h2 h3
    have hx := h1.exec (by rw [h2]; rcases hk with rfl | rfl <;> simp [Slot.pend])
    have hn := J.open_ h1 (by rw [h2]; rcases hk with rfl | rfl <;> simp [Slot.pend]) (by rw [h2]; rcases hk with rfl | rfl <;> simp [Slot.pend])
      (by rw [h2]; rcases hk with rfl | rfl <;> simp [Slot.pend])
    exact ⟨J.mode h1 h3 (by simp) (by simp) (fun _ => hx) (by simp) (fun x => absurd x hn), h3, hn⟩
  cases o with
  | ok v => exact ⟨conv _ ht.1 ht.2.1 ht.2.2.1, ht.2.2.2⟩
  | _ => exact conv _ ht.1 ht.2.1 ht.2.2

theorem bind_assoc' (x : Act α) (f : α → Act β) (g : β → Act γ) : ((x >>= f) >>= g) = (x >>= fun a => f a >>= g) := by
  funext s
  simp only [bind_eq, Act.bind]
  generalize x s = r
  obtain ⟨o, s'⟩ := r
  cases o <;> rfl

theorem tri_requestTimeComplete : Tri (fun s => Js core s) (App.requestTimeComplete core)
    (fun _ s => Idle core s) (Js core) := by
  unfold App.requestTimeComplete
  refine Tri.get fun a => ?_
  split
  · next e =>
    refine Tri.post (E' := fun s => Idle core s) ?_ (fun _ _ h => h) (fun _ h => h.inv)
    rw [← bind_assoc']
    refine Tri.bind (R := fun v s => Idle core s ∧ Fact core s.calls .time v) (Tri.pre (tri_takeExec .time (.inl rfl)) ?_) fun v => ?_
    · rintro s ⟨h, rfl⟩; exact ⟨h, e⟩
    exact Tri.bind (tri_post _ _) fun _ => Tri.pure fun s h => h
  · exact Tri.throw fun s h => h.1

theorem tri_afterIterative (t : Time) (r : Result) : Tri (fun s => Idle core s ∧ (r = .halted ∨ t ≥ cTerm → Ended core s.calls)) (afterIterative t r)
    (fun _ s => Idle core s) (fun s => Idle core s) := by
  unfold afterIterative
  refine Tri.bind (R := fun _ s => Idle core s) ?_ fun _ => Tri.pure fun s h => h
  cases r with
  | nextStep => exact Tri.pre (tri_post _ _) (fun s h => ⟨h.1, fun e => h.2 (.inr e)⟩)
  | iterating => exact Tri.pre (tri_post _ _) (fun s h => ⟨h.1, fun e => h.2 (.inr e)⟩)
  | halted =>
    refine Tri.bind (R := fun _ s => Idle core s ∧ (t ≥ cTerm → Ended core s.calls)) (tri_updateMode ?_) fun _ => ?_
    · rintro s ⟨h, h'⟩
      exact ⟨h.toMode (by simp) (fun _ => h' (.inl rfl)) (by simp) (by simp), fun e => by rw [(updateMode_snd _ s).2.2.1]; exact h' (.inr e)⟩
    exact Tri.get fun a => Tri.pre (tri_updateTime _ _ _) (fun s h => h.1)
  | error => exact tri_updateMode fun s h => h.1.toMode (by simp) (by simp) (by simp) (by simp)

theorem tri_requestIterComplete : Tri (fun s => Js core s) (requestTimeIterativeComplete core)
    (fun _ s => Idle core s) (Js core) := by
  unfold requestTimeIterativeComplete
  refine Tri.get fun a => ?_
  split
  · next e =>
    refine Tri.post (E' := fun s => Idle core s) ?_ (fun _ _ h => h) (fun _ h => h.inv)
    rw [← bind_assoc']
    refine Tri.bind (R := fun v s => Idle core s ∧ Fact core s.calls .iterTime v) (Tri.pre (tri_takeExec .iterTime (.inr rfl)) ?_) fun v => ?_
    · rintro s ⟨h, rfl⟩; exact ⟨h, e⟩
    exact tri_afterIterative _ _
  · exact Tri.throw fun s h => h.1

theorem tri_execFromInit (it : Iter) : Tri (fun s => Idle core s ∧ HadInit core s.calls) (execFromInit core it) (fun _ s => Idle core s) (Js core) := by
  unfold execFromInit
  refine Tri.post (E' := fun s => Idle core s) ?_ (fun _ _ h => h) (fun _ h => h.inv)
  refine Tri.bind (R := fun a s => Idle core s ∧ HadInit core s.calls ∧ (a.2.2 = .nextStep → HadExec core s.calls) ∧ (a.2.2 = .iterating → InInit core s.calls) ∧
        (a.2.2 = .halted → Ended core s.calls)) (Tri.ask ?_ ?_) fun a => ?_
  · intro s h _ _; exact h.1.ask (by simp) (fun _ => h.2) (fun e => by simp at e)
  · intro s h b t r e
    refine ⟨h.1.ask (by simp) (fun _ => h.2) (fun e => by simp at e), h.2.mono _, ?_, ?_, ?_⟩ <;> (intro er; dsimp only at er; subst er)
    · exact ⟨_, _, _, _, answered_last e⟩
    · exact .inr ⟨_, _, _, _, answered_last e⟩
    · exact .inl ⟨_, _, _, _, answered_last e⟩
  exact Tri.bind (tri_enteringExec _ _) fun _ => Tri.pure fun s h => h

theorem tri_completePendingExec : Tri (fun s => Js core s ∧ s.mode = .pendingExec) (completePendingExec core) (fun _ s => Idle core s) (Js core) := by
  unfold completePendingExec
  refine Tri.bind (tri_lock fun s h => h.1) fun _ => ?_
  refine Tri.rethrow (E' := fun s => Idle core s) ?_ (fun s h => h.inv) (fun s h => toError h)
  refine Tri.bind (R := fun v s => Idle core s ∧ Fact core s.calls .exec v) (Tri.post (tri_take .exec) ?_ ?_) fun v => ?_
  · rintro v s ⟨h1, h2, h3, h4⟩
    exact ⟨Idle.of h1 h3 (by rw [h2]; simp [Slot.pend]) (by rw [h2]; simp [Slot.pend]) (by rw [h2]; simp [Slot.pend]), h4⟩
  · rintro s ⟨h1, h2, h3⟩
    exact Idle.of h1 h3 (by rw [h2]; simp [Slot.pend]) (by rw [h2]; simp [Slot.pend]) (by rw [h2]; simp [Slot.pend])
  exact Tri.bind (tri_enteringExec _ _) fun _ => Tri.pure fun s h => h

theorem tri_enterExec (it : Iter) : Tri (fun s => Js core s) (enterExecutingMode core it) (fun _ => Idle core) (Js core) := by
  unfold enterExecutingMode
  refine Tri.get fun a => ?_
  split
  · exact Tri.bind (Tri.pre tri_enterInit (fun s h => h.1)) fun _ => tri_execFromInit it
  · exact Tri.bind (Tri.pre tri_enterInit (fun s h => h.1)) fun _ => tri_execFromInit it
  · next e =>
    refine Tri.pre (tri_execFromInit it) ?_
    rintro s ⟨h, rfl⟩
    exact ⟨Idle.ofMode h (by intro k; rw [e]; cases k <;> simp [Slot.pend]) (by rw [e]; simp) (by rw [e]; simp), (h.init e).1⟩
  · next e =>
    split
    · intro s h; exact h.1
    · exact Tri.pre tri_completePendingExec (fun s h => ⟨h.1, by rw [h.2]; exact e⟩)
  · next e =>
    refine Tri.pure ?_
    rintro s ⟨h, rfl⟩
    exact Idle.ofMode h (by intro k; rw [e]; cases k <;> simp [Slot.pend]) (by rw [e]; simp) (by rw [e]; simp)
  · exact Tri.bind (Tri.pre tri_requestTimeComplete (fun s h => h.1)) fun _ => Tri.pure fun s h => h
  · exact Tri.bind (Tri.pre tri_requestIterComplete (fun s h => h.1)) fun _ => Tri.pure fun s h => h
  · exact Tri.throw fun s h => h.1

theorem tri_enterExecComplete : Tri (fun s => Js core s) (enterExecutingModeComplete core) (fun _ => Idle core) (Js core) := by
  unfold enterExecutingModeComplete
  refine Tri.get fun a => ?_
  split
  · exact Tri.pre (tri_enterExec _) (fun s h => h.1)
  · split
    · next e => exact Tri.pre tri_completePendingExec (fun s h => ⟨h.1, by rw [h.2]; exact e⟩)
    · exact Tri.pre (tri_enterExec _) (fun s h => h.1)

theorem tri_launchExec (j : Job) (hj : Slot.exec.fits j) : Tri (fun s => Idle core s ∧ ∀ it, j = .enterExec it → HadInit core s.calls) (launchExec j) (fun _ => Js core) (Js core) := by
  unfold launchExec
  refine Tri.bind (R := fun _ s => Idle core s ∧ s.mode = Slot.exec.pend ∧ ∀ it, j = .enterExec it → HadInit core s.calls) (tri_updateMode ?_) fun _ => ?_
  · rintro s ⟨h, h'⟩
    have e := updateMode_snd .pendingExec s
    exact ⟨h.toMode (by simp) (by simp) (by simp) (by simp), e.1, by rw [e.2.2.1]; exact h'⟩
  exact Tri.bind (tri_launch _ _ hj) fun _ => Tri.pure fun s h => h

theorem tri_enterExecAsync (it : Iter) : Tri (fun s => Js core s) (enterExecutingModeAsync core it) (fun _ => Js core) (Js core) := by
  unfold enterExecutingModeAsync
  refine Tri.get fun a => ?_
  split
  · exact Tri.throw fun s h => h.1
  · split
    · next e =>
      refine Tri.pre (tri_launchExec _ (.inr ⟨it, rfl⟩)) ?_
      rintro s ⟨h, rfl⟩
      exact ⟨Idle.ofMode h (by intro k; rw [e]; cases k <;> simp [Slot.pend]) (by rw [e]; simp) (by rw [e]; simp), by intro it e; cases e⟩
    · exact Tri.bind (Tri.pre tri_enterInitComplete (fun s h => h.1)) fun _ => Tri.pre (tri_launchExec _ (.inl ⟨it, rfl⟩)) (fun s h => ⟨h.1, fun _ _ => h.2⟩)
    · next e =>
      refine Tri.pre (tri_launchExec _ (.inl ⟨it, rfl⟩)) ?_
      rintro s ⟨h, rfl⟩
      exact ⟨Idle.ofMode h (by intro k; rw [e]; cases k <;> simp [Slot.pend]) (by rw [e]; simp) (by rw [e]; simp), fun _ _ => (h.init e).1⟩
    · exact Tri.pure fun s h => h.1
    · exact Tri.pure fun s h => h.1
    · exact Tri.pure fun s h => h.1
    · exact Tri.pure fun s h => h.1
    · exact Tri.throw fun s h => h.1

theorem tri_requestLoop (next : Time) (fuel : Nat) : Tri (fun s => Idle core s ∧ HadExec core s.calls) (requestLoop core next fuel) (fun _ => Idle core) (Idle core) := by
  induction fuel with
  | zero => intro s h; exact h.1
  | succ n ih =>
    unfold requestLoop
    refine Tri.bind (tri_pre _ _ (fun s => Idle core s ∧ HadExec core s.calls) (fun s n h => ⟨h.1.same rfl rfl rfl, h.2⟩)) fun _ => ?_
    refine Tri.bind (R := fun a s => Idle core s ∧ HadExec core s.calls ∧ (a.2.1 ≥ cTerm → Ended core s.calls)) (Tri.ask ?_ ?_) fun a => ?_
    · intro s h _ _; exact h.1.ask (by simp) (fun e => by simp at e) (fun _ => h.2)
    · intro s h b t r e
      exact ⟨h.1.ask (by simp) (fun e => by simp at e) (fun _ => h.2), h.2.mono _, fun et => .inr (.inl ⟨_, _, _, _, _, answered_last e, et⟩)⟩
    refine Tri.bind (R := fun _ s => Idle core s ∧ HadExec core s.calls) ?_ fun _ => ?_
    · intro s h
      have h1 := tri_post (core := core) a.2.1 false s ⟨h.1, h.2.2⟩
      have h2 := tri_post_calls (cs := s.calls) a.2.1 false s rfl
      split at h1
      · next e => rw [e] at h2; exact ⟨h1, by dsimp only at h2; rw [h2]; exact h.2.1⟩
      · exact h1
    refine Tri.get fun b => Tri.pre ?_ (fun s h => h.1)
    split
    · exact ih
    · exact Tri.pure fun s h => h.1


theorem tri_requestTime (fuel : Nat) (next : Time) : Tri (fun s => Js core s) (App.requestTime core fuel next) (fun _ => Js core) (Js core) := by
  unfold App.requestTime
  refine Tri.get fun a => ?_
  split
  · next e =>
    refine Tri.rethrow (E' := fun s => Idle core s) ?_ (fun s h => h.inv) (fun s h => toError h)
    refine Tri.post (Tri.pre (tri_requestLoop next fuel) ?_) (fun _ _ h => h.inv) (fun _ h => h)
    rintro s ⟨h, rfl⟩
    exact ⟨Idle.ofMode h (by intro k; rw [e]; cases k <;> simp [Slot.pend]) (by rw [e]; simp) (by rw [e]; simp), h.exec (.inl e)⟩
  · exact Tri.pure fun s h => h.1
  · exact Tri.pure fun s h => h.1
  · exact Tri.throw fun s h => h.1

theorem tri_requestIter (next : Time) (it : Iter) : Tri (fun s => Js core s) (requestTimeIterative core next it) (fun _ => Js core) (Js core) := by
  unfold requestTimeIterative
  refine Tri.get fun a => ?_
  split
  · next e =>
    refine Tri.post (Q' := fun _ => Idle core) (E' := fun s => Idle core s) ?_ (fun _ _ h => h.inv) (fun _ h => h.inv)
    refine Tri.pre (P' := fun s => Idle core s ∧ HadExec core s.calls) ?_ ?_
    · refine Tri.bind (tri_pre _ _ (fun s => Idle core s ∧ HadExec core s.calls) (fun s n h => ⟨h.1.same rfl rfl rfl, h.2⟩)) fun _ => ?_
      refine Tri.bind (R := fun a s => Idle core s ∧ (a.2.2 = .halted ∨ a.2.1 ≥ cTerm → Ended core s.calls)) (Tri.ask ?_ ?_) fun a => ?_
      · intro s h _ _; exact h.1.ask (by simp) (fun e => by simp at e) (fun _ => h.2)
      · intro s h b t r e
        exact ⟨h.1.ask (by simp) (fun e => by simp at e) (fun _ => h.2), fun et => .inr (.inr ⟨_, _, _, _, _, _, answered_last e, et⟩)⟩
      exact tri_afterIterative _ _
    · rintro s ⟨h, rfl⟩
      exact ⟨Idle.ofMode h (by intro k; rw [e]; cases k <;> simp [Slot.pend]) (by rw [e]; simp) (by rw [e]; simp), h.exec (.inl e)⟩
  · split
    · exact Tri.pure fun s h => h.1
    · exact Tri.throw fun s h => h.1

theorem tri_requestTimeAsync (next : Time) : Tri (fun s => Js core s) (App.requestTimeAsync next) (fun _ => Js core) (Js core) := by
  unfold App.requestTimeAsync
  refine Tri.get fun a => ?_
  split
  · exact Tri.throw fun s h => h.1
  · split
    · next e =>
      refine Tri.bind (R := fun _ s => Idle core s ∧ s.mode = Slot.time.pend) (Tri.set ?_) fun _ => ?_
      · rintro s ⟨h, rfl⟩
        have hi := Idle.ofMode h (by intro k; rw [e]; cases k <;> simp [Slot.pend]) (by rw [e]; simp) (by rw [e]; simp)
        exact ⟨⟨J.mode hi.inv hi.free (by simp) (by simp) (fun _ => h.exec (.inl e)) (by simp) (fun x => absurd x hi.open_), hi.free, hi.open_⟩, rfl⟩
      refine Tri.bind (tri_pre _ _ _ fun s n h => ⟨h.1.same rfl rfl rfl, h.2⟩) fun _ => ?_
      exact Tri.bind (Tri.pre (tri_launch .time _ ⟨next, rfl⟩) (fun s h => ⟨h.1, h.2, by intro it e; cases e⟩)) fun _ => Tri.pure fun s h => h
    · exact Tri.throw fun s h => h.1

theorem tri_requestIterAsync (next : Time) (it : Iter) : Tri (fun s => Js core s) (requestTimeIterativeAsync next it) (fun _ => Js core) (Js core) := by
  unfold requestTimeIterativeAsync
  refine Tri.get fun a => ?_
  split
  · exact Tri.throw fun s h => h.1
  · split
    · next e =>
      refine Tri.bind (R := fun _ s => Idle core s ∧ s.mode = Slot.iterTime.pend) (Tri.set ?_) fun _ => ?_
      · rintro s ⟨h, rfl⟩
        have hi := Idle.ofMode h (by intro k; rw [e]; cases k <;> simp [Slot.pend]) (by rw [e]; simp) (by rw [e]; simp)
        exact ⟨⟨J.mode hi.inv hi.free (by simp) (by simp) (fun _ => h.exec (.inl e)) (by simp) (fun x => absurd x hi.open_), hi.free, hi.open_⟩, rfl⟩
      refine Tri.bind (tri_pre _ _ _ fun s n h => ⟨h.1.same rfl rfl rfl, h.2⟩) fun _ => ?_
      exact Tri.bind (Tri.pre (tri_launch .iterTime _ ⟨next, it, rfl⟩) (fun s h => ⟨h.1, h.2, by intro it e; cases e⟩)) fun _ => Tri.pure fun s h => h
    · exact Tri.throw fun s h => h.1

/-! The end. -/

/-- Nothing is pending; ready for a report of an error. -/
def Free (core : Core) (s : St) : Prop := Js core s ∧ ∀ k, s.fut k = .invalid

theorem tri_finalizeNow : Tri (fun s => Idle core s) (finalizeNow core) (fun _ s => Free core s) (Js core) := by
  unfold finalizeNow
  intro s h
  simp only [bind_eq, Act.bind, App.ask]
  cases e : core (s.calls ++ [.finalize]) with
  | throws x => exact h.inv.ask_fin h.open_ e
  | gives b t r =>
    dsimp only
    have hu := updateMode_snd .finalize { s with calls := s.calls ++ [.finalize] }
    generalize updateMode .finalize { s with calls := s.calls ++ [.finalize] } = x at hu
    obtain ⟨o, s'⟩ := x
    obtain ⟨e1, e2, e3, rfl⟩ := hu
    dsimp only at e1 e2 e3
    have hh : HadFin core (s.calls ++ [.finalize]) := ⟨_, _, _, _, answered_last e⟩
    have hf : ∀ k, s'.fut k = .invalid := by rw [e2]; exact h.free
    show Free core s'
    refine ⟨?_, hf⟩
    unfold Js
    rw [e1, e3]
    exact { ord := h.inv.ord.snoc (by rintro ⟨_, h⟩; cases h) (by rintro ⟨_, h | ⟨_, h⟩⟩ <;> cases h) (fun e => absurd e h.open_)
            tidy := fun k h => absurd (hf k) h
            jobs := fun k j h => by rw [hf k] at h; cases h
            init := fun e => by simp at e
            stop := fun e => by simp at e
            exec := fun e => by simp at e
            fin := fun _ => hh
            begun := fun it e => by rw [hf] at e; cases e
            told := fun k v e => by rw [hf] at e; cases e
            over := fun _ => .inl rfl }

theorem tri_completePendingFinalize : Tri (fun s => Js core s ∧ s.mode = .pendingFinalize) (completePendingFinalize core) (fun _ s => Free core s) (Js core) := by
  unfold completePendingFinalize
  refine Tri.bind (tri_lock fun s h => h.1) fun _ => ?_
  refine Tri.bind (Tri.post (tri_take .finalize) (fun _ _ h => h) (fun _ h => h.1)) fun v => ?_
  refine Tri.bind (R := fun _ s => Free core s) (tri_updateMode ?_) fun _ => Tri.pure fun s h => h
  rintro s ⟨h1, h2, h3, h4⟩
  have hu := updateMode_snd .finalize s
  refine ⟨?_, by rw [hu.2.1]; exact h3⟩
  unfold Js
  rw [hu.1, hu.2.1, hu.2.2.1]
  exact J.mode h1 h3 (by simp) (by simp) (by simp) (fun _ => h4) (fun _ => .inl rfl)

theorem tri_finalize : Tri (fun s => Js core s) (App.finalize core) (fun _ s => Free core s) (Js core) := by
  unfold App.finalize
  refine Tri.get fun a => ?_
  have now : ∀ m, a.mode = m → (∀ k : Slot, m ≠ k.pend) → m ≠ .finalize → m ≠ .error → ∀ s, Js core s ∧ s = a → Idle core s := by
    rintro m e h1 h2 h3 s ⟨h, rfl⟩
    subst e
    exact Idle.ofMode h h1 h2 h3
  have wait : ∀ k : Slot, k ≠ .finalize → a.mode = k.pend → Tri (fun s => Js core s ∧ s = a) (do lockAsync; let _ ← take core k; finalizeNow core) (fun _ s => Free core s) (Js core) := by
    intro k hk e
    refine Tri.bind (tri_lock fun s h => h.1) fun _ => ?_
    refine Tri.bind (R := fun _ s => Idle core s) (Tri.post (Tri.pre (tri_take k) ?_) ?_ (fun _ h => h.1)) fun _ => tri_finalizeNow
    · rintro s ⟨h, rfl⟩; exact ⟨h, e⟩
    · rintro v s ⟨h1, h2, h3, h4⟩
      exact Idle.of h1 h3 (by rw [h2]; cases k <;> simp [Slot.pend]) (by rw [h2]; cases k <;> simp [Slot.pend]) (by rw [h2]; cases k <;> simp [Slot.pend] <;> exact absurd rfl hk)
  split
  · next e => exact Tri.pre tri_finalizeNow (now _ e (by intro k; cases k <;> simp [Slot.pend]) (by simp) (by simp))
  · next e => exact Tri.pre tri_finalizeNow (now _ e (by intro k; cases k <;> simp [Slot.pend]) (by simp) (by simp))
  · next e => exact Tri.pre tri_finalizeNow (now _ e (by intro k; cases k <;> simp [Slot.pend]) (by simp) (by simp))
  · next e => exact Tri.pre tri_finalizeNow (now _ e (by intro k; cases k <;> simp [Slot.pend]) (by simp) (by simp))
  · next e =>
    refine Tri.bind (tri_lock fun s h => h.1) fun _ => ?_
    refine Tri.bind (R := fun _ s => Idle core s) ?_ fun _ => tri_finalizeNow
    refine Tri.rethrow (E' := fun s => Idle core s) ?_ (fun s h => h.inv) (fun s h => toError h)
    refine Tri.post (Tri.pre (tri_take .init) ?_) ?_ ?_
    · rintro s ⟨h, rfl⟩; exact ⟨h, e⟩
    · rintro v s ⟨h1, h2, h3, h4⟩
      exact Idle.of h1 h3 (by rw [h2]; simp [Slot.pend]) (by rw [h2]; simp [Slot.pend]) (by rw [h2]; simp [Slot.pend])
    · rintro s ⟨h1, h2, h3⟩
      exact Idle.of h1 h3 (by rw [h2]; simp [Slot.pend]) (by rw [h2]; simp [Slot.pend]) (by rw [h2]; simp [Slot.pend])
  · next e => exact wait .exec (by simp) e
  · next e => exact wait .time (by simp) e
  · next e => exact wait .iterTime (by simp) e
  · next e =>
    refine Tri.pure ?_
    rintro s ⟨h, rfl⟩
    exact ⟨h, J.none h (by intro k; rw [e]; cases k <;> simp [Slot.pend])⟩
  · next e =>
    refine Tri.pure ?_
    rintro s ⟨h, rfl⟩
    exact ⟨h, J.none h (by intro k; rw [e]; cases k <;> simp [Slot.pend])⟩
  · next e =>
    split
    · intro s h; exact h.1
    · exact Tri.pre tri_completePendingFinalize (fun s h => ⟨h.1, by rw [h.2]; exact e⟩)
  · exact Tri.throw fun s h => h.1

theorem tri_finalizeComplete : Tri (fun s => Js core s) (App.finalizeComplete core) (fun _ s => Free core s) (Js core) := by
  unfold App.finalizeComplete
  refine Tri.get fun a => ?_
  split
  · exact Tri.pre tri_finalize (fun s h => h.1)
  · split
    · next e => exact Tri.pre tri_completePendingFinalize (fun s h => ⟨h.1, by rw [h.2]; exact e⟩)
    · exact Tri.pre tri_finalize (fun s h => h.1)

theorem tri_launchFinalize : Tri (fun s => Idle core s) launchFinalize (fun _ => Js core) (Js core) := by
  unfold launchFinalize
  refine Tri.bind (R := fun _ s => Idle core s ∧ s.mode = Slot.finalize.pend) (tri_updateMode ?_) fun _ => ?_
  · intro s h
    exact ⟨h.toMode (by simp) (by simp) (by simp) (by simp), (updateMode_snd _ s).1⟩
  exact Tri.bind (Tri.pre (tri_launch .finalize _ rfl) (fun s h => ⟨h.1, h.2, by intro it e; cases e⟩)) fun _ => Tri.pure fun s h => h

theorem tri_finalizeAsync : Tri (fun s => Js core s ∧ s.mode ≠ .pendingIterInit) (App.finalizeAsync core) (fun _ => Js core) (Js core) := by
  unfold App.finalizeAsync
  refine Tri.get fun a => ?_
  split
  · exact Tri.throw fun s h => h.1.1
  · split
    · exact Tri.bind (Tri.pre tri_enterInitComplete (fun s h => h.1.1)) fun _ => Tri.pre tri_launchFinalize (fun s h => h.1)
    · exact Tri.bind (Tri.pre tri_enterExecComplete (fun s h => h.1.1)) fun _ => tri_launchFinalize
    · exact Tri.bind (Tri.pre tri_requestTimeComplete (fun s h => h.1.1)) fun _ => tri_launchFinalize
    · exact Tri.bind (Tri.pre tri_requestIterComplete (fun s h => h.1.1)) fun _ => tri_launchFinalize
    · exact Tri.pure fun s h => h.1.1
    · exact Tri.pure fun s h => h.1.1
    · exact Tri.pure fun s h => h.1.1
    · next h1 h2 h3 h4 h5 h6 h7 =>
      refine Tri.pre tri_launchFinalize ?_
      rintro s ⟨⟨h, hm⟩, rfl⟩
      refine Idle.ofMode h ?_ (fun e => h5 e) (fun e => h6 e)
      intro k e
      cases k
      · exact h1 e
      · exact h2 e
      · exact h3 e
      · exact h4 e
      · exact h7 e
      · exact hm e

theorem tri_completeOperation : Tri (fun s => Js core s ∧ s.mode ≠ .pendingIterInit) (completeOperation core) (fun _ s => Free core s) (Js core) := by
  unfold completeOperation
  refine Tri.get fun a => ?_
  split
  · exact Tri.bind (Tri.pre tri_enterInitComplete (fun s h => h.1.1)) fun _ => Tri.pure fun s h => ⟨h.1.inv, h.1.free⟩
  · exact Tri.bind (Tri.pre tri_enterExecComplete (fun s h => h.1.1)) fun _ => Tri.pure fun s h => ⟨h.inv, h.free⟩
  · exact Tri.bind (Tri.pre tri_requestTimeComplete (fun s h => h.1.1)) fun _ => Tri.pure fun s h => ⟨h.inv, h.free⟩
  · exact Tri.bind (Tri.pre tri_requestIterComplete (fun s h => h.1.1)) fun _ => Tri.pure fun s h => ⟨h.inv, h.free⟩
  · exact Tri.bind (Tri.pre tri_finalizeComplete (fun s h => h.1.1)) fun _ => Tri.pure fun s h => h
  · next h1 h2 h3 h4 h7 =>
    refine Tri.pure ?_
    rintro s ⟨⟨h, hm⟩, rfl⟩
    refine ⟨h, J.none h ?_⟩
    intro k e
    cases k
    · exact h1 e
    · exact h2 e
    · exact h3 e
    · exact h4 e
    · exact h7 e
    · exact hm e

theorem tri_raise (c : Call) (hc : c = .localError ∨ c = .globalError) : Tri (fun s => Js core s ∧ s.mode ≠ .pendingIterInit) (raise core c) (fun _ => Js core) (Js core) := by
  unfold raise
  refine Tri.bind tri_completeOperation fun _ => ?_
  refine Tri.bind (R := fun _ => Js core) (tri_updateMode ?_) fun _ => ?_
  · rintro s ⟨h, hf⟩
    have hu := updateMode_snd .error s
    unfold Js
    rw [hu.1, hu.2.1, hu.2.2.1]
    exact J.mode h hf (by simp) (by simp) (by simp) (by simp) (fun _ => .inr rfl)
  have key : ∀ s, Js core s → Js core { s with calls := s.calls ++ [c] } := fun s h =>
    J.ask h (by rcases hc with rfl | rfl <;> simp) (by rcases hc with rfl | rfl <;> simp) (by rcases hc with rfl | rfl <;> simp) (fun _ => hc)
  exact Tri.bind (R := fun _ => Js core) (Tri.ask (fun s h _ _ => key s h) (fun s h _ _ _ _ => key s h)) fun _ => Tri.pure fun s h => h

theorem tri_destroy : Tri (fun s => Js core s) (App.destroy core) (fun _ => Js core) (Js core) := by
  unfold App.destroy
  refine Tri.get fun a => ?_
  split
  · exact Tri.pure fun s h => h.1
  · rintro s ⟨h, _⟩
    have := tri_finalize (core := core) s h
    dsimp only
    generalize App.finalize core s = x at this ⊢
    obtain ⟨o, s'⟩ := x
    cases o with
    | ok a => exact this.1
    | _ => exact this

theorem tri_isCompleted : Tri (fun s => Js core s) isAsyncOperationCompleted (fun _ => Js core) (Js core) := by
  unfold isAsyncOperationCompleted
  refine Tri.get fun a => ?_
  have ready : ∀ k : Slot, Tri (fun s => Js core s ∧ s = a) (match a.fut k with
      | .done _ => (pure (.flag true) : Act Val) | .todo _ => pure (.flag false) | .invalid => Act.throw .std) (fun _ => Js core) (Js core) := by
    intro k
    cases a.fut k with
    | invalid => exact Tri.throw fun s h => h.1
    | todo j => exact Tri.pure fun s h => h.1
    | done r => exact Tri.pure fun s h => h.1
  dsimp only
  split
  · exact Tri.pure fun s h => h.1
  · split
    all_goals first
      | exact ready _
      | exact Tri.pure fun s h => h.1

/-- Every call keeps the invariant. -/
theorem js_act {s : St} (h : Js core s) (o : Op) (ho : s.mode = .pendingIterInit → o.rash = false) : Js core (act core o s).2 := by
  have fromTri : ∀ {P : St → Prop} {x : Act Val} {Q : Val → St → Prop}, Tri P x Q (Js core) → (∀ v s, Q v s → Js core s) → P s → Js core (x s).2 := by
    intro P x Q ht hq hp
    have := ht s hp
    split at this
    · next e => rw [e]; exact hq _ _ this
    · next e => rw [e]; exact this
  cases o <;> simp only [act]
  · exact fromTri tri_enterInit (fun _ _ h => h.1.inv) h
  · exact fromTri tri_enterInitAsync (fun _ _ h => h) h
  · exact fromTri tri_enterInitComplete (fun _ _ h => h.1.inv) h
  · exact fromTri tri_iterInit (fun _ _ h => h) h
  · exact fromTri tri_iterInitAsync (fun _ _ h => h) h
  · exact fromTri tri_iterInitComplete (fun _ _ h => h) h
  · exact fromTri (tri_enterExec _) (fun _ _ h => h.inv) h
  · exact fromTri (tri_enterExecAsync _) (fun _ _ h => h) h
  · exact fromTri tri_enterExecComplete (fun _ _ h => h.inv) h
  · exact fromTri (tri_requestTime _ _) (fun _ _ h => h) h
  · exact fromTri (tri_requestTimeAsync _) (fun _ _ h => h) h
  · exact fromTri tri_requestTimeComplete (fun _ _ h => h.inv) h
  · exact fromTri (tri_requestIter _ _) (fun _ _ h => h) h
  · exact fromTri (tri_requestIterAsync _ _) (fun _ _ h => h) h
  · exact fromTri tri_requestIterComplete (fun _ _ h => h.inv) h
  · exact fromTri tri_finalize (fun _ _ h => h.1) h
  · exact fromTri tri_finalizeAsync (fun _ _ h => h) ⟨h, fun e => by have := ho e; cases this⟩
  · exact fromTri tri_finalizeComplete (fun _ _ h => h.1) h
  · exact fromTri (tri_raise _ (.inl rfl)) (fun _ _ h => h) ⟨h, fun e => by have := ho e; cases this⟩
  · exact fromTri (tri_raise _ (.inr rfl)) (fun _ _ h => h) ⟨h, fun e => by have := ho e; cases this⟩
  · exact fromTri tri_isCompleted (fun _ _ h => h) h
  · exact fromTri tri_destroy (fun _ _ h => h) h
  · next k =>
    have := work_spec (core := core) k h
    simp only [bind_eq, Act.bind]
    generalize work core k s = x at this
    obtain ⟨o, s'⟩ := x
    obtain ⟨h1, rfl, _⟩ := this
    exact h1

end App
end Verif
