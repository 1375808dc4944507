import Verif.Lemmas.ApiNotes
/-! # What is kept by every call -/
namespace Verif
namespace App
variable {core : Core} {I : Mode → List Note → Prop} {S : Mode → Mode → Prop}

/-- One of these modes. -/
def isMode (l : List Mode) : Mode → Prop := fun m => m ∈ l

theorem Pm.any {M : Mode → Prop} (s : St) (hs : Pm core I M s) : Pm core I anyMode s := Pm.weak (fun _ _ => trivial) s hs

theorem atMode {s a : St} {m : Mode} (hs : Pm core I anyMode s ∧ s = a) (e : a.mode = m) : Pm core I (isMode [m]) s :=
  ⟨hs.1.1, hs.1.2.1, by rw [hs.2, e]; simp [isMode]⟩

section
variable (h : Closed (core := core) I S)
include h

theorem Closed.toError {M : Mode → Prop} (hM : ∀ m, M m → m ≠ .finalize) (s : St) (hs : Pm core I M s) : Pm core I anyMode (updateMode .error s).2 := by
  rw [updateMode_eq]
  refine ⟨h.step _ _ _ (h.base _ _ ?_) hs.1, hs.2.1, trivial⟩
  have := hM _ hs.2.2
  cases e : s.mode <;> simp_all [baseStep]

theorem Closed.enteringInit (r : Result) : Tri (Pm core I (isMode [.startup, .pendingInit, .initializing, .pendingExec])) (App.enteringInit core r)
    (fun _ => Pm core I (isMode [.initializing])) (Pm core I (isMode [.initializing])) := by
  unfold App.enteringInit
  refine Tri.bind (h.mode (M' := isMode [.initializing]) .initializing ?_ (by simp [isMode])) fun _ => ?_
  · intro m hm; apply h.base; simp [isMode] at hm; rcases hm with rfl | rfl | rfl | rfl <;> rfl
  have L := h.lax (isMode [.initializing])
  refine Tri.bind (L.ask _) fun _ => Tri.bind (L.set (fun _ => rfl) (fun _ => rfl) (fun _ => rfl)) fun _ => ?_
  refine Tri.bind ?_ fun _ => L.note rfl
  split
  · exact L.note rfl
  · exact Tri.pure fun _ h => h

theorem Closed.update' (new old : Time) (it : Bool) : Tri (Pm core I (isMode [.executing])) (updateSimulationTime new old it)
    (fun _ s => Pm core I (isMode [.executing, .finished]) s ∧ (new < cTerm → s.mode = .executing)) (Pm core I notFin) := by
  unfold updateSimulationTime
  have L := h.lax (isMode [.executing])
  have wk : ∀ s, Pm core I (isMode [.executing]) s → Pm core I notFin s := Pm.weak (by intro m hm; simp [isMode] at hm; simp [notFin, hm])
  refine Tri.bind (Tri.post (L.set (fun _ => rfl) (fun _ => rfl) (fun _ => rfl)) (fun _ _ h => h) wk) fun _ => ?_
  refine Tri.bind (R := fun _ => Pm core I (isMode [.executing])) (tri_note fun s hs => ?_) fun _ => ?_
  · have e : s.mode = .executing := by have := hs.2.2; simpa [isMode] using this
    refine ⟨?_, hs.2.1, hs.2.2⟩
    dsimp only
    have := hs.1
    rw [e] at this ⊢
    exact h.update _ _ _ this
  refine Tri.bind (Tri.post (L.note rfl) (fun _ _ h => h) wk) fun _ => ?_
  split
  · next e =>
    refine Tri.post (h.mode (M' := isMode [.finished]) .finished ?_ (by simp [isMode])) ?_ (fun _ h => h)
    · intro m hm; apply h.base; simp [isMode] at hm; rcases hm with rfl; rfl
    · intro _ s hs; exact ⟨Pm.weak (by intro m hm; simp [isMode] at hm; simp [isMode, hm]) s hs, fun e' => absurd e (Int.not_le.mpr e')⟩
  · refine Tri.pure fun s hs => ⟨Pm.weak (by intro m hm; simp [isMode] at hm; simp [isMode, hm]) s hs, fun _ => ?_⟩
    have := hs.2.2; simpa [isMode] using this

theorem Closed.post (new : Time) (it : Bool) : Tri (Pm core I (isMode [.executing])) (postTimeRequest new it)
    (fun _ s => Pm core I (isMode [.executing, .finished]) s ∧ (new < cTerm → s.mode = .executing)) (Pm core I notFin) := by
  unfold postTimeRequest
  refine Tri.get fun a => Tri.pre ?_ (fun s h => h.1)
  refine Tri.bind (h.update' _ _ _) fun _ => ?_
  refine tri_note fun s hs => ⟨(h.lax _).plain s _ hs.1 rfl, hs.2⟩

theorem Closed.enteringExec (t : Time) (r : Result) {M : Mode → Prop} (hM : ∀ m, M m → m ∈ [Mode.startup, .pendingInit, .initializing, .pendingExec])
    (hM' : ∀ m, M m → S m .executing ∧ S m .finished) :
    Tri (Pm core I M) (App.enteringExec core t r)
    (fun _ => Pm core I (isMode [.executing, .finished, .initializing, .error])) (Pm core I notFin) := by
  unfold App.enteringExec
  cases r with
  | nextStep =>
    refine Tri.bind (h.mode (M' := isMode [.executing]) .executing (fun m hm => (hM' m hm).1) (by simp [isMode])) fun _ => ?_
    have L := h.lax (isMode [.executing])
    refine Tri.post (Q' := fun _ => Pm core I (isMode [.executing])) (E' := Pm core I (isMode [.executing])) ?_ (fun _ => Pm.weak (by intro m hm; simp [isMode] at hm; simp [isMode, hm])) (Pm.weak (by intro m hm; simp [isMode] at hm; simp [notFin, hm]))
    refine Tri.bind (L.set (fun _ => rfl) (fun _ => rfl) (fun _ => rfl)) fun _ => ?_
    refine Tri.bind (R := fun _ => Pm core I (isMode [.executing])) (tri_note fun s hs => ?_) fun _ => ?_
    · have e : s.mode = .executing := by have := hs.2.2; simpa [isMode] using this
      refine ⟨?_, hs.2.1, hs.2.2⟩
      dsimp only
      have := hs.1
      rw [e] at this ⊢
      exact h.update _ _ _ this
    exact Tri.bind (L.note rfl) fun _ => L.note rfl
  | iterating =>
    refine Tri.post (Q' := fun _ => Pm core I (isMode [.initializing])) (E' := Pm core I (isMode [.initializing])) ?_ (fun _ => Pm.weak (by intro m hm; simp [isMode] at hm; simp [isMode, hm])) (Pm.weak (by intro m hm; simp [isMode] at hm; simp [notFin, hm]))
    refine Tri.bind (R := fun _ => Pm core I M) (Tri.set fun s hs => (h.lax M).same _ _ hs rfl rfl rfl) fun _ => ?_
    exact Tri.bind (Tri.pre (h.enteringInit _) (Pm.weak hM)) fun _ => (h.lax _).note rfl
  | error =>
    refine h.mode .error ?_ (by simp [isMode])
    intro m hm; apply h.base
    have := hM m hm; simp at this; rcases this with rfl | rfl | rfl | rfl <;> rfl
  | halted => exact h.mode .finished (fun m hm => (hM' m hm).2) (by simp [isMode])

theorem Closed.completePendingInit : Tri (Pm core I (isMode [.pendingInit])) (App.completePendingInit core)
    (fun _ s => Pm core I (isMode [.pendingInit, .initializing]) s ∧ (Grants core → s.mode = .initializing)) (Pm core I anyMode) := by
  unfold App.completePendingInit
  refine Tri.bind (tri_lock Pm.any) fun _ => ?_
  refine Tri.rethrow (E' := Pm core I (isMode [.pendingInit, .initializing])) ?_ Pm.any (h.toError (by intro m hm; simp [isMode] at hm; rcases hm with rfl | rfl <;> simp))
  refine Tri.bind (Tri.post (h.take .init) (fun _ _ h => h) (Pm.weak (by intro m hm; simp [isMode] at hm; simp [isMode, hm]))) fun v => ?_
  refine Tri.bind (R := fun _ s => Pm core I (isMode [.pendingInit, .initializing]) s ∧ (Grants core → s.mode = .initializing)) ?_ fun _ => Tri.pure fun _ h => h
  split
  · refine Tri.post (Tri.pre (h.enteringInit _) ?_) ?_ ?_
    · rintro s ⟨hs, _⟩; exact Pm.weak (by intro m hm; simp [isMode] at hm; simp [isMode, hm]) s hs
    · intro _ s hs; exact ⟨Pm.weak (by intro m hm; simp [isMode] at hm; simp [isMode, hm]) s hs, fun _ => by simpa [isMode] using hs.2.2⟩
    · exact Pm.weak (by intro m hm; simp [isMode] at hm; simp [isMode, hm])
  · next hv =>
    refine Tri.pure ?_
    rintro s ⟨hs, hg⟩
    exact ⟨Pm.weak (by intro m hm; simp [isMode] at hm; simp [isMode, hm]) s hs, fun g => absurd (hg rfl g) hv⟩

theorem Closed.enterInitFromStart : Tri (Pm core I (isMode [.startup])) (App.enterInitFromStart core)
    (fun _ s => Pm core I (isMode [.startup, .initializing]) s ∧ (Grants core → s.mode = .initializing)) (Pm core I anyMode) := by
  unfold App.enterInitFromStart
  refine Tri.rethrow (E' := Pm core I (isMode [.startup, .initializing])) ?_ Pm.any (h.toError (by intro m hm; simp [isMode] at hm; rcases hm with rfl | rfl <;> simp))
  have wk : ∀ s, Pm core I (isMode [.startup]) s → Pm core I (isMode [.startup, .initializing]) s := Pm.weak (by intro m hm; simp [isMode] at hm; simp [isMode, hm])
  refine Tri.bind (Tri.post (h.lax _).pot (fun _ _ h => h) wk) fun _ => ?_
  refine Tri.bind (R := fun a s => Pm core I (isMode [.startup]) s ∧ (Grants core → a.1 = true)) (Tri.ask ?_ ?_) fun a => ?_
  · intro s hs _ _; exact wk _ ((h.lax _).same s _ hs rfl rfl rfl)
  · intro s hs b t r e; exact ⟨(h.lax _).same s _ hs rfl rfl rfl, fun g => g _ _ _ _ e⟩
  refine Tri.bind (R := fun _ s => Pm core I (isMode [.startup, .initializing]) s ∧ (Grants core → s.mode = .initializing)) ?_ fun _ => Tri.pure fun _ h => h
  split
  · refine Tri.post (Tri.pre (h.enteringInit _) ?_) ?_ ?_
    · rintro s ⟨hs, _⟩; exact Pm.weak (by intro m hm; simp [isMode] at hm; simp [isMode, hm]) s hs
    · intro _ s hs; exact ⟨Pm.weak (by intro m hm; simp [isMode] at hm; simp [isMode, hm]) s hs, fun _ => by simpa [isMode] using hs.2.2⟩
    · exact Pm.weak (by intro m hm; simp [isMode] at hm; simp [isMode, hm])
  · next hv =>
    refine Tri.pure ?_
    rintro s ⟨hs, hg⟩
    exact ⟨wk s hs, fun g => absurd (hg g) hv⟩

theorem Closed.enterInit : Tri (Pm core I anyMode) (App.enterInitializingMode core)
    (fun _ s => Pm core I (isMode [.startup, .pendingInit, .initializing]) s ∧ (Grants core → s.mode = .initializing)) (Pm core I anyMode) := by
  unfold App.enterInitializingMode
  refine Tri.get fun a => ?_
  split
  · next e =>
    refine Tri.post (Tri.pre h.enterInitFromStart (fun s hs => atMode hs e)) ?_ (fun _ h => h)
    rintro _ s ⟨hs, hg⟩
    exact ⟨Pm.weak (by intro m hm; simp [isMode] at hm ⊢; rcases hm with rfl | rfl <;> simp) s hs, hg⟩
  · next e =>
    split
    · intro s hs; exact hs.1
    · refine Tri.post (Tri.pre h.completePendingInit (fun s hs => atMode hs e)) ?_ (fun _ h => h)
      rintro _ s ⟨hs, hg⟩
      exact ⟨Pm.weak (by intro m hm; simp [isMode] at hm ⊢; rcases hm with rfl | rfl <;> simp) s hs, hg⟩
  · next e =>
    refine Tri.pure ?_
    intro s hs
    exact ⟨Pm.weak (by intro m hm; simp [isMode] at hm ⊢; simp [hm]) s (atMode hs e), fun _ => by rw [hs.2]; exact e⟩
  · exact Tri.throw fun s hs => hs.1

theorem Closed.enterInitComplete : Tri (Pm core I anyMode) (App.enterInitializingModeComplete core)
    (fun _ s => Pm core I (isMode [.startup, .pendingInit, .initializing]) s ∧ (Grants core → s.mode = .initializing)) (Pm core I anyMode) := by
  unfold App.enterInitializingModeComplete
  refine Tri.get fun a => ?_
  split
  · exact Tri.pre h.enterInit (fun s hs => hs.1)
  · split
    · next e =>
      refine Tri.post (Tri.pre h.completePendingInit (fun s hs => atMode hs e)) ?_ (fun _ h => h)
      rintro _ s ⟨hs, hg⟩
      exact ⟨Pm.weak (by intro m hm; simp [isMode] at hm ⊢; rcases hm with rfl | rfl <;> simp) s hs, hg⟩
    · next e =>
      refine Tri.pure ?_
      intro s hs
      exact ⟨Pm.weak (by intro m hm; simp [isMode] at hm ⊢; simp [hm]) s (atMode hs e), fun _ => by rw [hs.2]; exact e⟩
    · exact Tri.pre h.enterInit (fun s hs => hs.1)
    · exact Tri.throw fun s hs => hs.1

/-- Completed out of the mode of a pending request, it is not startup mode that is reached. -/
theorem Closed.enterInitComplete' : Tri (Pm core I (isMode [.pendingInit])) (App.enterInitializingModeComplete core)
    (fun _ s => Pm core I (isMode [.pendingInit, .initializing]) s ∧ (Grants core → s.mode = .initializing)) (Pm core I anyMode) := by
  unfold App.enterInitializingModeComplete
  refine Tri.get fun a => ?_
  by_cases ha : a.mode = .pendingInit
  · split
    · unfold App.enterInitializingMode
      refine Tri.get fun b => ?_
      intro s hs
      obtain ⟨⟨hs, rfl⟩, rfl⟩ := hs
      have := h.completePendingInit s hs
      simp only [ha]
      by_cases e : s.single = true
      · simp only [if_pos e]; exact Pm.any _ hs
      · simp only [if_neg e]; exact this
    · rw [ha]
      exact Tri.pre h.completePendingInit (fun s hs => hs.1)
  · intro s hs
    obtain ⟨hs, rfl⟩ := hs
    exact absurd (by simpa [isMode] using hs.2.2) ha

theorem Closed.enterInitAsync : Tri (Pm core I anyMode) App.enterInitializingModeAsync (fun _ => Pm core I anyMode) (Pm core I anyMode) := by
  unfold App.enterInitializingModeAsync
  refine Tri.get fun a => ?_
  split
  · exact Tri.throw fun s h => h.1
  · split
    · next e =>
      refine Tri.bind (R := fun _ => Pm core I anyMode) (Tri.pre (h.setMode .pendingInit (M := isMode [.startup]) ?_ trivial) (fun s hs => atMode hs e)) fun _ => ?_
      · intro m hm; simp [isMode] at hm; subst hm; exact ⟨h.base _ _ rfl, rfl⟩
      exact Tri.bind (h.launch .init .enterInit (fun _ => rfl)) fun _ => Tri.pure fun s h => h
    · exact Tri.pure fun s h => h.1
    · exact Tri.pure fun s h => h.1
    · exact Tri.throw fun s h => h.1

theorem Closed.iterInitComplete : Tri (Pm core I anyMode) (App.iterInitComplete core) (fun _ => Pm core I anyMode) (Pm core I anyMode) := by
  unfold App.iterInitComplete
  refine Tri.get fun a => ?_
  split
  · next e =>
    refine Tri.bind (tri_lock fun s h => h.1) fun _ => ?_
    refine Tri.rethrow (E' := Pm core I (isMode [.pendingIterInit])) ?_ Pm.any (h.toError (by intro m hm; simp [isMode] at hm; subst hm; simp))
    refine Tri.bind (Tri.pre (h.take .iterInit) (fun s hs => atMode hs e)) fun v => ?_
    refine Tri.bind (Tri.pre (h.mode (M := isMode [.pendingIterInit]) (M' := anyMode) .startup ?_ trivial) (fun s hs => hs.1)) fun _ => Tri.pure fun _ h => h
    intro m hm; simp [isMode] at hm; subst hm; exact h.base _ _ rfl
  · exact Tri.pure fun s h => h.1
  · exact Tri.throw fun s h => h.1

theorem Closed.iterInit : Tri (Pm core I anyMode) (App.iterInit core) (fun _ => Pm core I anyMode) (Pm core I anyMode) := by
  unfold App.iterInit
  refine Tri.get fun a => ?_
  split
  · next e =>
    refine Tri.rethrow (E' := Pm core I (isMode [.startup])) ?_ Pm.any (h.toError (by intro m hm; simp [isMode] at hm; subst hm; simp))
    have L := h.lax (isMode [.startup])
    refine Tri.bind (R := fun _ => Pm core I (isMode [.startup])) (Tri.pre (P' := Pm core I (isMode [.startup])) ?_ (fun s hs => atMode hs e)) fun _ => Tri.pure Pm.any
    split
    · exact Tri.bind (L.ask _) fun _ => Tri.bind (L.ask _) fun _ => L.set (fun _ => rfl) (fun _ => rfl) (fun _ => rfl)
    · split
      · exact Tri.bind (L.ask _) fun _ => Tri.bind (L.ask _) fun _ => L.set (fun _ => rfl) (fun _ => rfl) (fun _ => rfl)
      · exact Tri.bind (L.ask _) fun _ => Tri.pure fun _ h => h
  · exact Tri.pre h.iterInitComplete (fun s h => h.1)
  · exact Tri.throw fun s h => h.1

theorem Closed.iterInitAsync (hi : ∀ ns, I .startup ns → I .pendingIterInit ns) :
    Tri (Pm core I anyMode) App.iterInitAsync (fun _ => Pm core I anyMode) (Pm core I anyMode) := by
  unfold App.iterInitAsync
  refine Tri.get fun a => ?_
  split
  · next e =>
    refine Tri.bind (tri_lock fun s h => h.1) fun _ => ?_
    refine Tri.bind (R := fun _ => Pm core I anyMode) (Tri.set ?_) fun _ => ?_
    · rintro s ⟨hs, rfl⟩
      refine ⟨hi _ ?_, hs.2.1, trivial⟩
      have := hs.1; rw [e] at this; exact this
    exact Tri.bind (h.launch .iterInit .iterInit (by simp)) fun _ => Tri.pure fun s h => h
  · exact Tri.pure fun s h => h.1
  · exact Tri.throw fun s h => h.1

theorem Closed.requestTimeComplete : Tri (Pm core I anyMode) (App.requestTimeComplete core) (fun _ => Pm core I (isMode [.executing, .finished])) (Pm core I anyMode) := by
  unfold App.requestTimeComplete
  refine Tri.get fun a => ?_
  split
  · next e =>
    refine Tri.bind (R := fun _ => Pm core I (isMode [.executing])) (Tri.pre (h.setMode .executing (M := isMode [.pendingTime]) ?_ (by simp [isMode])) (fun s hs => atMode hs e)) fun _ => ?_
    · intro m hm; simp [isMode] at hm; subst hm; exact ⟨h.base _ _ rfl, rfl⟩
    refine Tri.bind (Tri.post (h.take .time) (fun _ _ h => h.1) Pm.any) fun v => ?_
    exact Tri.bind (Tri.post (h.post _ _) (fun _ _ h => h.1) Pm.any) fun _ => Tri.pure fun _ h => h
  · exact Tri.throw fun s h => h.1

theorem Closed.afterIterative (t : Time) (r : Result) : Tri (Pm core I (isMode [.executing])) (App.afterIterative t r)
    (fun _ => Pm core I (isMode [.executing, .finished, .error])) (Pm core I anyMode) := by
  unfold App.afterIterative
  refine Tri.bind (R := fun _ => Pm core I (isMode [.executing, .finished, .error])) ?_ fun _ => Tri.pure fun _ h => h
  have wk : ∀ s, Pm core I (isMode [.executing, .finished]) s → Pm core I (isMode [.executing, .finished, .error]) s :=
    Pm.weak (by intro m hm; simp [isMode] at hm ⊢; rcases hm with rfl | rfl <;> simp)
  cases r with
  | nextStep => exact Tri.post (h.post _ _) (fun _ s h => wk s h.1) Pm.any
  | iterating => exact Tri.post (h.post _ _) (fun _ s h => wk s h.1) Pm.any
  | halted =>
    intro s hs
    have e : s.mode = .executing := by have := hs.2.2; simpa [isMode] using this
    have hl := hs.1
    rw [e] at hl
    have hl := h.plain _ _ (.hookTime t s.now) rfl (h.late _ t false hl)
    simp only [bind_eq, Act.bind, updateMode_eq, App.get, updateSimulationTime, App.set, App.note, e]
    by_cases et : t ≥ cTerm
    · simp only [if_pos et, updateMode_eq]
      refine ⟨?_, hs.2.1, by simp [isMode]⟩
      dsimp only
      rw [show emit Mode.finished Mode.finished = [] from rfl, List.append_nil]
      exact hl
    · simp only [if_neg et]
      exact ⟨hl, hs.2.1, by simp [isMode]⟩
  | error =>
    refine h.mode .error ?_ (by simp [isMode])
    intro m hm; apply h.base; simp [isMode] at hm; subst hm; rfl

theorem Closed.requestIterComplete : Tri (Pm core I anyMode) (App.requestTimeIterativeComplete core) (fun _ => Pm core I (isMode [.executing, .finished, .error])) (Pm core I anyMode) := by
  unfold App.requestTimeIterativeComplete
  refine Tri.get fun a => ?_
  split
  · next e =>
    refine Tri.bind (R := fun _ => Pm core I (isMode [.executing])) (Tri.pre (h.setMode .executing (M := isMode [.pendingIterTime]) ?_ (by simp [isMode])) (fun s hs => atMode hs e)) fun _ => ?_
    · intro m hm; simp [isMode] at hm; subst hm; exact ⟨h.base _ _ rfl, rfl⟩
    refine Tri.bind (Tri.post (h.take .iterTime) (fun _ _ h => h.1) Pm.any) fun v => ?_
    exact h.afterIterative _ _
  · exact Tri.throw fun s h => h.1

/-- What is needed to enter executing mode. -/
def InitOr (core : Core) (s : St) : Prop := Grants core → s.mode = .initializing

theorem Closed.execFromInit (it : Iter) : Tri (fun s => Pm core I (isMode [.startup, .pendingInit, .initializing]) s ∧ InitOr core s)
    (App.execFromInit core it) (fun _ => Pm core I (isMode [.executing, .finished, .initializing, .error])) (Pm core I anyMode) := by
  unfold App.execFromInit
  have go : ∀ M : Mode → Prop, (∀ m, M m → m ∈ [Mode.startup, .pendingInit, .initializing]) → (∀ m, M m → S m .executing ∧ S m .finished) →
      Tri (Pm core I M) (do let a ← App.ask core (.enterExec it); App.enteringExec core a.2.1 a.2.2; return .iter a.2.1 a.2.2 : Act Val)
        (fun _ => Pm core I (isMode [.executing, .finished, .initializing, .error])) (Pm core I anyMode) := by
    intro M h1 h2
    refine Tri.bind (Tri.post ((h.lax M).ask _) (fun _ _ h => h) Pm.any) fun a => ?_
    exact Tri.bind (Tri.post (h.enteringExec _ _ (fun m hm => by have := h1 m hm; simp at this ⊢; rcases this with rfl | rfl | rfl <;> simp) h2) (fun _ _ h => h) Pm.any) fun _ => Tri.pure fun _ h => h
  rcases h.grants with hg | hg
  · refine Tri.pre (go (isMode [.initializing]) ?_ ?_) ?_
    · intro m hm; simp [isMode] at hm; simp [hm]
    · intro m hm; simp [isMode] at hm; subst hm; exact ⟨h.base _ _ rfl, h.base _ _ rfl⟩
    · rintro s ⟨hs, hi⟩; exact ⟨hs.1, hs.2.1, by rw [hi hg]; simp [isMode]⟩
  · refine Tri.pre (go (isMode [.startup, .pendingInit, .initializing]) (fun m hm => hm) ?_) (fun s hs => hs.1)
    intro m hm
    simp [isMode] at hm
    rcases hm with rfl | rfl | rfl
    · exact ⟨hg _ _ (by simp) (by simp), hg _ _ (by simp) (by simp)⟩
    · exact ⟨hg _ _ (by simp) (by simp), hg _ _ (by simp) (by simp)⟩
    · exact ⟨h.base _ _ rfl, h.base _ _ rfl⟩

theorem Closed.completePendingExec : Tri (Pm core I (isMode [.pendingExec])) (App.completePendingExec core)
    (fun _ => Pm core I (isMode [.executing, .finished, .initializing, .error])) (Pm core I anyMode) := by
  unfold App.completePendingExec
  refine Tri.bind (tri_lock Pm.any) fun _ => ?_
  refine Tri.rethrow (E' := Pm core I notFin) ?_ Pm.any (h.toError (fun m hm => hm))
  refine Tri.bind (Tri.post (h.take .exec) (fun _ _ h => h.1) (Pm.weak (by intro m hm; simp [isMode] at hm; simp [notFin, hm]))) fun v => ?_
  refine Tri.bind (h.enteringExec _ _ ?_ ?_) fun _ => Tri.pure fun _ h => h
  · intro m hm; simp [isMode] at hm; simp [hm]
  · intro m hm; simp [isMode] at hm; subst hm; exact ⟨h.base _ _ rfl, h.base _ _ rfl⟩

theorem Closed.enterExec (it : Iter) : Tri (Pm core I anyMode) (App.enterExecutingMode core it)
    (fun _ => Pm core I (isMode [.executing, .finished, .initializing, .error])) (Pm core I anyMode) := by
  unfold App.enterExecutingMode
  refine Tri.get fun a => ?_
  split
  · exact Tri.bind (Tri.pre h.enterInit (fun s h => h.1)) fun _ => h.execFromInit it
  · exact Tri.bind (Tri.pre h.enterInit (fun s h => h.1)) fun _ => h.execFromInit it
  · next e =>
    refine Tri.pre (h.execFromInit it) ?_
    intro s hs
    exact ⟨Pm.weak (by intro m hm; simp [isMode] at hm ⊢; simp [hm]) s (atMode hs e), fun _ => by rw [hs.2]; exact e⟩
  · next e =>
    split
    · intro s h; exact h.1
    · exact Tri.pre h.completePendingExec (fun s hs => atMode hs e)
  · next e => exact Tri.pure fun s hs => Pm.weak (by intro m hm; simp [isMode] at hm ⊢; simp [hm]) s (atMode hs e)
  · exact Tri.bind (Tri.pre h.requestTimeComplete (fun s h => h.1)) fun _ => Tri.pure (Pm.weak (by intro m hm; simp [isMode] at hm ⊢; rcases hm with rfl | rfl <;> simp))
  · exact Tri.bind (Tri.pre h.requestIterComplete (fun s h => h.1)) fun _ => Tri.pure (Pm.weak (by intro m hm; simp [isMode] at hm ⊢; rcases hm with rfl | rfl | rfl <;> simp))
  · exact Tri.throw fun s h => h.1

theorem Closed.enterExecComplete : Tri (Pm core I anyMode) (App.enterExecutingModeComplete core)
    (fun _ => Pm core I (isMode [.executing, .finished, .initializing, .error])) (Pm core I anyMode) := by
  unfold App.enterExecutingModeComplete
  refine Tri.get fun a => ?_
  split
  · exact Tri.pre (h.enterExec _) (fun s h => h.1)
  · split
    · next e => exact Tri.pre h.completePendingExec (fun s hs => atMode hs e)
    · exact Tri.pre (h.enterExec _) (fun s h => h.1)

theorem Closed.launchExec (j : Job) {M : Mode → Prop} (hM : ∀ m, M m → S m .pendingExec) :
    Tri (Pm core I M) (App.launchExec j) (fun _ => Pm core I anyMode) (Pm core I anyMode) := by
  unfold App.launchExec
  refine Tri.bind (h.mode (M' := anyMode) .pendingExec hM trivial) fun _ => ?_
  exact Tri.bind (h.launch .exec j (by simp)) fun _ => Tri.pure fun _ h => h

theorem Closed.enterExecAsync (it : Iter) {m0 : Mode} (hx : m0 = .startup → S .startup .pendingExec) :
    Tri (fun s => Pm core I anyMode s ∧ s.mode = m0) (App.enterExecutingModeAsync core it) (fun _ => Pm core I anyMode) (Pm core I anyMode) := by
  unfold App.enterExecutingModeAsync
  refine Tri.get fun a => ?_
  split
  · exact Tri.throw fun s h => h.1.1
  · split
    · next e =>
      intro s hs
      obtain ⟨⟨hs, hm⟩, rfl⟩ := hs
      refine h.launchExec (.enterExecFromStart it) (M := isMode [.startup]) ?_ s (atMode ⟨hs, rfl⟩ e)
      intro m hm'
      simp [isMode] at hm'; subst hm'
      exact hx (hm.symm.trans e)
    · next e =>
      refine Tri.bind (Tri.pre h.enterInitComplete' ?_) fun _ => ?_
      · rintro s ⟨⟨hs, _⟩, rfl⟩; exact atMode ⟨hs, rfl⟩ e
      rcases h.grants with hg | hg
      · refine Tri.pre (h.launchExec (.enterExec it) (M := isMode [.initializing]) ?_) ?_
        · intro m hm; simp [isMode] at hm; subst hm; exact h.base _ _ rfl
        · rintro s ⟨hs, hi⟩; exact ⟨hs.1, hs.2.1, by rw [hi hg]; simp [isMode]⟩
      · refine Tri.pre (h.launchExec (.enterExec it) (M := isMode [.pendingInit, .initializing]) ?_) (fun s hs => hs.1)
        intro m hm; simp [isMode] at hm
        rcases hm with rfl | rfl
        · exact hg _ _ (by simp) (by simp)
        · exact h.base _ _ rfl
    · next e =>
      refine Tri.pre (h.launchExec (.enterExec it) (M := isMode [.initializing]) ?_) ?_
      · intro m hm; simp [isMode] at hm; subst hm; exact h.base _ _ rfl
      · rintro s ⟨⟨hs, _⟩, rfl⟩; exact atMode ⟨hs, rfl⟩ e
    · exact Tri.pure fun s h => h.1.1
    · exact Tri.pure fun s h => h.1.1
    · exact Tri.pure fun s h => h.1.1
    · exact Tri.pure fun s h => h.1.1
    · exact Tri.throw fun s h => h.1.1

end
end App
end Verif
