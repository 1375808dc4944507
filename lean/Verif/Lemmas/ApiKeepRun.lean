import Verif.Lemmas.ApiKeep
/-! # What is kept by every call, continued -/
namespace Verif
namespace App
variable {core : Core} {I : Mode → List Note → Prop} {S : Mode → Mode → Prop}

section
variable (h : Closed (core := core) I S)
include h

theorem Closed.requestLoop (next : Time) (fuel : Nat) : Tri (Pm core I (isMode [.executing])) (App.requestLoop core next fuel)
    (fun _ => Pm core I (isMode [.executing, .finished])) (Pm core I notFin) := by
  have wk : ∀ s, Pm core I (isMode [.executing]) s → Pm core I notFin s := Pm.weak (by intro m hm; simp [isMode] at hm; simp [notFin, hm])
  induction fuel with
  | zero => intro s hs; exact wk s hs
  | succ n ih =>
    unfold App.requestLoop
    have L := h.lax (isMode [.executing])
    refine Tri.bind (Tri.post (L.pre _ _) (fun _ _ h => h) wk) fun _ => ?_
    refine Tri.bind (Tri.post (L.ask _) (fun _ _ h => h) wk) fun a => ?_
    refine Tri.bind (h.post _ _) fun _ => ?_
    refine Tri.get fun b => Tri.pre ?_ (fun s h => h.1)
    split
    · next e =>
      refine Tri.pre ih ?_
      rintro s ⟨hs, he⟩
      simp at e
      exact ⟨hs.1, hs.2.1, by rw [he e.2]; simp [isMode]⟩
    · exact Tri.pure fun _ h => h.1

theorem Closed.requestTime (fuel : Nat) (next : Time) : Tri (Pm core I anyMode) (App.requestTime core fuel next) (fun _ => Pm core I anyMode) (Pm core I anyMode) := by
  unfold App.requestTime
  refine Tri.get fun a => ?_
  split
  · next e =>
    refine Tri.rethrow (E' := Pm core I notFin) ?_ Pm.any (h.toError (fun m hm => hm))
    refine Tri.post (Tri.pre (h.requestLoop next fuel) ?_) (fun _ => Pm.any) (fun _ h => h)
    intro s hs
    exact Pm.weak (by intro m hm; simp [isMode] at hm; simp [isMode, hm]) s (atMode hs e)
  · exact Tri.pure fun s h => h.1
  · exact Tri.pure fun s h => h.1
  · exact Tri.throw fun s h => h.1

theorem Closed.requestIter (next : Time) (it : Iter) : Tri (Pm core I anyMode) (App.requestTimeIterative core next it) (fun _ => Pm core I anyMode) (Pm core I anyMode) := by
  unfold App.requestTimeIterative
  refine Tri.get fun a => ?_
  split
  · next e =>
    have L := h.lax (isMode [.executing])
    refine Tri.bind (R := fun _ => Pm core I (isMode [.executing])) (Tri.post (Tri.pre (L.pre _ _) ?_) (fun _ _ h => h) Pm.any) fun _ => ?_
    · intro s hs
      exact Pm.weak (by intro m hm; simp [isMode] at hm; simp [isMode, hm]) s (atMode hs e)
    refine Tri.bind (Tri.post (L.ask _) (fun _ _ h => h) Pm.any) fun a => ?_
    exact Tri.post (h.afterIterative _ _) (fun _ => Pm.any) (fun _ h => h)
  · split
    · exact Tri.pure fun s h => h.1
    · exact Tri.throw fun s h => h.1

theorem Closed.requestTimeAsync (next : Time) : Tri (Pm core I anyMode) (App.requestTimeAsync next) (fun _ => Pm core I anyMode) (Pm core I anyMode) := by
  unfold App.requestTimeAsync
  refine Tri.get fun a => ?_
  split
  · exact Tri.throw fun s h => h.1
  · split
    · next e =>
      refine Tri.bind (R := fun _ => Pm core I anyMode) (Tri.pre (h.setMode .pendingTime (M := isMode [.executing]) ?_ trivial) (fun s hs => atMode hs e)) fun _ => ?_
      · intro m hm; simp [isMode] at hm; subst hm; exact ⟨h.base _ _ rfl, rfl⟩
      refine Tri.bind ((h.lax anyMode).pre _ _) fun _ => ?_
      exact Tri.bind (h.launch .time _ (by simp)) fun _ => Tri.pure fun s h => h
    · exact Tri.throw fun s h => h.1

theorem Closed.requestIterAsync (next : Time) (it : Iter) : Tri (Pm core I anyMode) (App.requestTimeIterativeAsync next it) (fun _ => Pm core I anyMode) (Pm core I anyMode) := by
  unfold App.requestTimeIterativeAsync
  refine Tri.get fun a => ?_
  split
  · exact Tri.throw fun s h => h.1
  · split
    · next e =>
      refine Tri.bind (R := fun _ => Pm core I anyMode) (Tri.pre (h.setMode .pendingIterTime (M := isMode [.executing]) ?_ trivial) (fun s hs => atMode hs e)) fun _ => ?_
      · intro m hm; simp [isMode] at hm; subst hm; exact ⟨h.base _ _ rfl, rfl⟩
      refine Tri.bind ((h.lax anyMode).pre _ _) fun _ => ?_
      exact Tri.bind (h.launch .iterTime _ (by simp)) fun _ => Tri.pure fun s h => h
    · exact Tri.throw fun s h => h.1

theorem Closed.finalizeNow {M : Mode → Prop} (hM : ∀ m, M m → S m .finalize) : Tri (Pm core I M) (App.finalizeNow core) (fun _ => Pm core I anyMode) (Pm core I anyMode) := by
  unfold App.finalizeNow
  refine Tri.bind (Tri.post ((h.lax M).ask _) (fun _ _ h => h) Pm.any) fun _ => ?_
  exact Tri.bind (h.mode (M' := anyMode) .finalize hM trivial) fun _ => Tri.pure fun _ h => h

theorem Closed.completePendingFinalize : Tri (Pm core I (isMode [.pendingFinalize])) (App.completePendingFinalize core) (fun _ => Pm core I anyMode) (Pm core I anyMode) := by
  unfold App.completePendingFinalize
  refine Tri.bind (tri_lock Pm.any) fun _ => ?_
  refine Tri.bind (Tri.post (h.take .finalize) (fun _ _ h => h.1) Pm.any) fun _ => ?_
  refine Tri.bind (h.mode (M' := anyMode) .finalize ?_ trivial) fun _ => Tri.pure fun _ h => h
  intro m hm; simp [isMode] at hm; subst hm; exact h.base _ _ rfl

theorem Closed.finalize : Tri (Pm core I anyMode) (App.finalize core) (fun _ => Pm core I anyMode) (Pm core I anyMode) := by
  unfold App.finalize
  refine Tri.get fun a => ?_
  have now : ∀ m, a.mode = m → baseStep m .finalize = true → Tri (fun s => Pm core I anyMode s ∧ s = a) (App.finalizeNow core) (fun _ => Pm core I anyMode) (Pm core I anyMode) := by
    intro m e hb
    refine Tri.pre (h.finalizeNow (M := isMode [m]) ?_) (fun s hs => atMode hs e)
    intro m' hm; simp [isMode] at hm; subst hm; exact h.base _ _ hb
  have wait : ∀ (k : Slot) m, a.mode = m → baseStep m .finalize = true → Tri (fun s => Pm core I anyMode s ∧ s = a) (do lockAsync; let _ ← App.take core k; App.finalizeNow core) (fun _ => Pm core I anyMode) (Pm core I anyMode) := by
    intro k m e hb
    refine Tri.pre (P' := Pm core I (isMode [m])) ?_ (fun s hs => atMode hs e)
    refine Tri.bind (tri_lock Pm.any) fun _ => ?_
    refine Tri.bind (Tri.post (h.take k) (fun _ _ h => h.1) Pm.any) fun _ => ?_
    refine h.finalizeNow ?_
    intro m' hm; simp [isMode] at hm; subst hm; exact h.base _ _ hb
  split
  · next e => exact now _ e rfl
  · next e => exact now _ e rfl
  · next e => exact now _ e rfl
  · next e => exact now _ e rfl
  · next e =>
    refine Tri.pre (P' := Pm core I (isMode [.pendingInit])) ?_ (fun s hs => atMode hs e)
    refine Tri.bind (tri_lock Pm.any) fun _ => ?_
    refine Tri.bind (R := fun _ => Pm core I (isMode [.pendingInit])) ?_ fun _ => ?_
    · refine Tri.rethrow (E' := Pm core I (isMode [.pendingInit])) (Tri.post (h.take .init) (fun _ _ h => h.1) (fun _ h => h)) Pm.any (h.toError ?_)
      intro m hm; simp [isMode] at hm; subst hm; simp
    refine h.finalizeNow ?_
    intro m' hm; simp [isMode] at hm; subst hm; exact h.base _ _ rfl
  · next e => exact wait .exec _ e rfl
  · next e => exact wait .time _ e rfl
  · next e => exact wait .iterTime _ e rfl
  · exact Tri.pure fun s h => h.1
  · exact Tri.pure fun s h => h.1
  · next e =>
    split
    · intro s h; exact h.1
    · exact Tri.pre h.completePendingFinalize (fun s hs => atMode hs e)
  · exact Tri.throw fun s h => h.1

theorem Closed.finalizeComplete : Tri (Pm core I anyMode) (App.finalizeComplete core) (fun _ => Pm core I anyMode) (Pm core I anyMode) := by
  unfold App.finalizeComplete
  refine Tri.get fun a => ?_
  split
  · exact Tri.pre h.finalize (fun s h => h.1)
  · split
    · next e => exact Tri.pre h.completePendingFinalize (fun s hs => atMode hs e)
    · exact Tri.pre h.finalize (fun s h => h.1)

theorem Closed.launchFinalize {M : Mode → Prop} (hM : ∀ m, M m → S m .pendingFinalize) :
    Tri (Pm core I M) App.launchFinalize (fun _ => Pm core I anyMode) (Pm core I anyMode) := by
  unfold App.launchFinalize
  refine Tri.bind (h.mode (M' := anyMode) .pendingFinalize hM trivial) fun _ => ?_
  exact Tri.bind (h.launch .finalize _ (by simp)) fun _ => Tri.pure fun _ h => h

theorem Closed.finalizeAsync {m0 : Mode} (hf : ∀ m, finFrom m0 m = true → S m .pendingFinalize) :
    Tri (fun s => Pm core I anyMode s ∧ s.mode = m0) (App.finalizeAsync core) (fun _ => Pm core I anyMode) (Pm core I anyMode) := by
  unfold App.finalizeAsync
  refine Tri.get fun a => ?_
  split
  · exact Tri.throw fun s h => h.1.1
  · split
    · next e =>
      intro s hs
      obtain ⟨⟨hs, hm⟩, rfl⟩ := hs
      subst hm
      rw [e] at hf
      refine Tri.bind (P := Pm core I (isMode [.pendingInit])) h.enterInitComplete' (fun _ => Tri.pre (h.launchFinalize (M := isMode [.pendingInit, .initializing]) ?_) (fun s hs => hs.1)) s (atMode ⟨hs, rfl⟩ e)
      intro m hm; simp [isMode] at hm; apply hf; rcases hm with rfl | rfl <;> rfl
    · next e =>
      intro s hs
      obtain ⟨⟨hs, hm⟩, rfl⟩ := hs
      subst hm
      rw [e] at hf
      refine Tri.bind h.enterExecComplete (fun _ => h.launchFinalize ?_) s hs
      intro m hm; simp [isMode] at hm; apply hf; rcases hm with rfl | rfl | rfl | rfl <;> rfl
    · next e =>
      intro s hs
      obtain ⟨⟨hs, hm⟩, rfl⟩ := hs
      subst hm
      rw [e] at hf
      refine Tri.bind h.requestTimeComplete (fun _ => h.launchFinalize ?_) s hs
      intro m hm; simp [isMode] at hm; apply hf; rcases hm with rfl | rfl <;> rfl
    · next e =>
      intro s hs
      obtain ⟨⟨hs, hm⟩, rfl⟩ := hs
      subst hm
      rw [e] at hf
      refine Tri.bind h.requestIterComplete (fun _ => h.launchFinalize ?_) s hs
      intro m hm; simp [isMode] at hm; apply hf; rcases hm with rfl | rfl | rfl <;> rfl
    · exact Tri.pure fun s h => h.1.1
    · exact Tri.pure fun s h => h.1.1
    · exact Tri.pure fun s h => h.1.1
    · next h1 h2 h3 h4 h5 h6 h7 =>
      intro s hs
      obtain ⟨⟨hs, hm⟩, rfl⟩ := hs
      subst hm
      refine h.launchFinalize (M := isMode [s.mode]) ?_ s (atMode ⟨hs, rfl⟩ rfl)
      intro m hm; simp [isMode] at hm; subst hm; apply hf
      generalize s.mode = x at *
      cases x <;> simp_all [finFrom]

theorem Closed.completeOperation {m0 : Mode} : Tri (fun s => Pm core I anyMode s ∧ s.mode = m0) (App.completeOperation core)
    (fun _ => Pm core I (fun m => m = .finalize → m0 = .finalize ∨ m0 = .pendingFinalize)) (Pm core I anyMode) := by
  unfold App.completeOperation
  refine Tri.get fun a => ?_
  split
  · exact Tri.bind (Tri.pre h.enterInitComplete fun s h => h.1.1) (fun _ => Tri.pure fun s h => Pm.weak (by intro m hm e; subst e; simp [isMode] at hm) s h.1)
  · exact Tri.bind (Tri.pre h.enterExecComplete fun s h => h.1.1) (fun _ => Tri.pure fun s h => Pm.weak (by intro m hm e; subst e; simp [isMode] at hm) s h)
  · exact Tri.bind (Tri.pre h.requestTimeComplete fun s h => h.1.1) (fun _ => Tri.pure fun s h => Pm.weak (by intro m hm e; subst e; simp [isMode] at hm) s h)
  · exact Tri.bind (Tri.pre h.requestIterComplete fun s h => h.1.1) (fun _ => Tri.pure fun s h => Pm.weak (by intro m hm e; subst e; simp [isMode] at hm) s h)
  · next e =>
    intro s hs
    obtain ⟨⟨hs, hm⟩, rfl⟩ := hs
    subst hm
    exact Tri.bind (β := Unit) (Q := fun _ => Pm core I (fun m => m = .finalize → s.mode = .finalize ∨ s.mode = .pendingFinalize)) h.finalizeComplete
      (fun _ => Tri.pure fun s' h => Pm.weak (fun m hm _ => .inr e) s' h) s hs
  · refine Tri.pure ?_
    rintro s ⟨⟨hs, hm⟩, rfl⟩
    exact ⟨hs.1, hs.2.1, fun e => .inl (hm.symm.trans e)⟩

theorem Closed.raise (c : Call) {m0 : Mode} (hr : m0 = .finalize ∨ m0 = .pendingFinalize → S .finalize .error) :
    Tri (fun s => Pm core I anyMode s ∧ s.mode = m0) (App.raise core c) (fun _ => Pm core I anyMode) (Pm core I anyMode) := by
  unfold App.raise
  refine Tri.bind h.completeOperation fun _ => ?_
  refine Tri.bind (h.mode (M' := anyMode) .error ?_ trivial) fun _ => ?_
  · intro m hm
    cases m
    case finalize => exact hr (hm rfl)
    all_goals exact h.base _ _ rfl
  exact Tri.bind ((h.lax anyMode).ask _) fun _ => Tri.pure fun _ h => h

theorem Closed.destroy : Tri (Pm core I anyMode) (App.destroy core) (fun _ => Pm core I anyMode) (Pm core I anyMode) := by
  unfold App.destroy
  refine Tri.get fun a => ?_
  split
  · exact Tri.pure fun s h => h.1
  · rintro s ⟨hs, _⟩
    have := h.finalize s hs
    dsimp only
    generalize App.finalize core s = x at this ⊢
    obtain ⟨o, s'⟩ := x
    cases o with
    | ok a => exact this
    | _ => exact this

omit h in
theorem tri_isCompleted' (P : St → Prop) : Tri P isAsyncOperationCompleted (fun _ => P) P := by
  unfold isAsyncOperationCompleted
  refine Tri.get fun a => ?_
  have ready : ∀ k : Slot, Tri (fun s => P s ∧ s = a) (match a.fut k with
      | .done _ => (pure (.flag true) : Act Val) | .todo _ => pure (.flag false) | .invalid => Act.throw .std) (fun _ => P) P := by
    intro k
    cases a.fut k with
    | invalid => exact Tri.throw fun s h => h.1
    | todo j => exact Tri.pure fun s h => h.1
    | done r => exact Tri.pure fun s h => h.1
  dsimp only
  split
  · exact Tri.pure fun s h => h.1
  · split
    all_goals first
      | exact ready _
      | exact Tri.pure fun s h => h.1

/-- What every call keeps. -/
theorem Closed.act {s : St} (o : Op) (hs : I s.mode s.notes) (hF : F core s.fut)
    (hx : ∀ it, o = .enterExecAsync it → s.mode = .startup → S .startup .pendingExec)
    (hi : o = .iterInitAsync → ∀ ns, I .startup ns → I .pendingIterInit ns)
    (hf : o = .finalizeAsync → ∀ m, finFrom s.mode m = true → S m .pendingFinalize)
    (hr : o = .localError ∨ o = .globalError → s.mode = .finalize ∨ s.mode = .pendingFinalize → S .finalize .error) :
    I (act core o s).2.mode (act core o s).2.notes ∧ F core (act core o s).2.fut := by
  have hP : Pm core I anyMode s := ⟨hs, hF, trivial⟩
  have fromTri : ∀ {P : St → Prop} {x : Act Val} {Q : Val → St → Prop}, Tri P x Q (Pm core I anyMode) → (∀ v s, Q v s → Pm core I anyMode s) → P s →
      I (x s).2.mode (x s).2.notes ∧ F core (x s).2.fut := by
    intro P x Q ht hq hp
    have := ht s hp
    split at this
    · next e => rw [e]; exact ⟨(hq _ _ this).1, (hq _ _ this).2.1⟩
    · next e => rw [e]; exact ⟨this.1, this.2.1⟩
  cases o <;> simp only [App.act]
  · exact fromTri h.enterInit (fun _ s h => Pm.any s h.1) hP
  · exact fromTri h.enterInitAsync (fun _ _ h => h) hP
  · exact fromTri h.enterInitComplete (fun _ s h => Pm.any s h.1) hP
  · exact fromTri h.iterInit (fun _ _ h => h) hP
  · exact fromTri (h.iterInitAsync (hi rfl)) (fun _ _ h => h) hP
  · exact fromTri h.iterInitComplete (fun _ _ h => h) hP
  · exact fromTri (h.enterExec _) (fun _ s h => Pm.any s h) hP
  · exact fromTri (h.enterExecAsync _ (m0 := s.mode) (hx _ rfl)) (fun _ s h => Pm.any s h) ⟨hP, rfl⟩
  · exact fromTri h.enterExecComplete (fun _ s h => Pm.any s h) hP
  · exact fromTri (h.requestTime _ _) (fun _ _ h => h) hP
  · exact fromTri (h.requestTimeAsync _) (fun _ _ h => h) hP
  · exact fromTri h.requestTimeComplete (fun _ s h => Pm.any s h) hP
  · exact fromTri (h.requestIter _ _) (fun _ _ h => h) hP
  · exact fromTri (h.requestIterAsync _ _) (fun _ _ h => h) hP
  · exact fromTri h.requestIterComplete (fun _ s h => Pm.any s h) hP
  · exact fromTri h.finalize (fun _ _ h => h) hP
  · exact fromTri (h.finalizeAsync (m0 := s.mode) (hf rfl)) (fun _ _ h => h) ⟨hP, rfl⟩
  · exact fromTri h.finalizeComplete (fun _ _ h => h) hP
  · exact fromTri (h.raise _ (m0 := s.mode) (hr (.inl rfl))) (fun _ _ h => h) ⟨hP, rfl⟩
  · exact fromTri (h.raise _ (m0 := s.mode) (hr (.inr rfl))) (fun _ _ h => h) ⟨hP, rfl⟩
  · exact fromTri (tri_isCompleted' _) (fun _ _ h => h) hP
  · exact fromTri h.destroy (fun _ _ h => h) hP
  · next k =>
    refine fromTri (P := Pm core I anyMode) (Q := fun _ => Pm core I anyMode) (Tri.bind (R := fun _ => Pm core I anyMode) ?_ fun _ => Tri.pure fun _ h => h) (fun _ _ h => h) hP
    intro s hs
    have := h.work k hs
    generalize App.work core k s = x at this
    obtain ⟨o, s'⟩ := x
    obtain ⟨h1, h2⟩ := this
    dsimp only at h2
    subst h2
    exact h1

end
end App
end Verif
