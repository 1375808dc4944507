import Verif.Lemmas.ApiStep
/-! # What is kept by the changes of mode and the callbacks that every call makes -/
namespace Verif
namespace App
variable {core : Core}

/-- Notes that say nothing about the mode and the time. -/
def Note.harmless : Note → Bool
  | .mode _ _ | .execEntry | .terminated | .timeUpdate _ _ => false
  | _ => true

/-- What is told when the mode changes. -/
def emit (new old : Mode) : List Note :=
  if new = old then [] else if new.silent then [] else modeNote new old ++
    (if new = .executing ∧ (old = .initializing ∨ old = .pendingExec) then [.execEntry] else []) ++
    (if new = .finalize ∨ new = .error then [.terminated] else [])

theorem updateMode_eq (new : Mode) (s : St) : updateMode new s = (.ok (), { s with mode := new, notes := s.notes ++ emit new s.mode }) := by
  unfold updateMode App.set emit
  dsimp only
  by_cases h1 : new = s.mode
  · rw [if_pos h1, if_pos h1]; simp
  · rw [if_neg h1, if_neg h1]
    by_cases h2 : new.silent = true
    · rw [if_pos h2, if_pos h2]; simp
    · rw [if_neg h2, if_neg h2]; simp

/-- Changes of mode that every federate may make. -/
def baseStep : Mode → Mode → Bool
  | .finalize, .error => false
  | _, .error => true
  | .startup, b => b == .startup || b == .initializing || b == .pendingInit || b == .finalize
  | .pendingInit, b => b == .initializing || b == .finalize
  | .initializing, b => b == .initializing || b == .pendingExec || b == .executing || b == .finished || b == .finalize
  | .pendingExec, b => b == .initializing || b == .executing || b == .finished || b == .finalize
  | .executing, b => b == .pendingTime || b == .pendingIterTime || b == .finished || b == .finalize
  | .pendingTime, b => b == .executing || b == .finalize
  | .pendingIterTime, b => b == .executing || b == .finalize
  | .finished, b => b == .finished || b == .finalize
  | .pendingFinalize, b => b == .finalize
  | .pendingIterInit, b => b == .startup
  | _, _ => false

/-- The modes from which an asynchronous end may be started. -/
def finFrom : Mode → Mode → Bool
  | .pendingInit, m => m == .initializing || m == .pendingInit
  | .pendingExec, m => m == .executing || m == .finished || m == .initializing || m == .error
  | .pendingTime, m => m == .executing || m == .finished
  | .pendingIterTime, m => m == .executing || m == .finished || m == .error
  | m0, m => m == m0 && m0 != .error && m0 != .finalize && m0 != .pendingFinalize

/-- Something that depends on the mode and the notes only. -/
structure Closed (I : Mode → List Note → Prop) (S : Mode → Mode → Prop) : Prop where
  plain : ∀ m ns n, n.harmless = true → I m ns → I m (ns ++ [n])
  step : ∀ old new ns, S old new → I old ns → I new (ns ++ emit new old)
  update : ∀ ns t i, I .executing ns → I .executing (ns ++ [.timeUpdate t i])
  late : ∀ ns t i, I .executing ns → I .finished (ns ++ emit .finished .executing ++ [.timeUpdate t i])
  base : ∀ a b, baseStep a b = true → S a b
  grants : Grants core ∨ ∀ a b, a = .startup ∨ a = .pendingInit → b = .executing ∨ b = .finished ∨ b = .pendingExec → S a b

/-- The future of the request to enter initializing mode. -/
def F (core : Core) (f : Slot → Future) : Prop :=
  (∀ j, f .init = .todo j → j = .enterInit) ∧ ∀ v, f .init = .done (.ok v) → Grants core → v = .flag true

/-- The property, the future, and something about the mode. -/
def Pm (core : Core) (I : Mode → List Note → Prop) (M : Mode → Prop) (s : St) : Prop := I s.mode s.notes ∧ F core s.fut ∧ M s.mode

/-- Kept by changes of the calls, the time and harmless notes. -/
structure Lax (P : St → Prop) : Prop where
  same : ∀ s s', P s → s'.mode = s.mode → s'.fut = s.fut → s'.notes = s.notes → P s'
  plain : ∀ s n, P s → n.harmless = true → P { s with notes := s.notes ++ [n] }

theorem Closed.lax {I S} (h : Closed (core := core) I S) (M : Mode → Prop) : Lax (Pm core I M) where
  same s s' hs e1 e2 e3 := by unfold Pm; rw [e1, e2, e3]; exact hs
  plain s n hs hn := ⟨h.plain _ _ _ hn hs.1, hs.2.1, hs.2.2⟩

section
variable {P : St → Prop} (h : Lax P)
include h

theorem Lax.ask (c : Call) : Tri P (App.ask core c) (fun _ => P) P :=
  Tri.ask (fun s hs _ _ => h.same s _ hs rfl rfl rfl) (fun s hs _ _ _ _ => h.same s _ hs rfl rfl rfl)
theorem Lax.set {f : St → St} (h1 : ∀ s, (f s).mode = s.mode) (h2 : ∀ s, (f s).fut = s.fut) (h3 : ∀ s, (f s).notes = s.notes) :
    Tri P (App.set f) (fun _ => P) P := Tri.set fun s hs => h.same s _ hs (h1 s) (h2 s) (h3 s)
theorem Lax.note {n : Note} (hn : n.harmless = true) : Tri P (note n) (fun _ => P) P := tri_note fun s hs => h.plain s n hs hn
theorem Lax.pot : Tri P (potSequence core) (fun _ => P) P := by
  have stage : ∀ (n : Nat) (x : Act Unit), Tri P x (fun _ => P) P → Tri P (potStage n x) (fun _ => P) P := by
    intro n x hx
    unfold potStage
    refine Tri.get fun a => Tri.pre ?_ (fun s h => h.1)
    split
    · exact Tri.bind hx (fun _ => h.set (fun _ => rfl) (fun _ => rfl) (fun _ => rfl))
    · exact Tri.pure (fun _ h => h)
  unfold potSequence
  refine Tri.get fun a => Tri.pre ?_ (fun s h => h.1)
  split
  · refine Tri.bind (stage _ _ (Tri.bind (h.ask _) fun _ => Tri.pure (fun _ h => h))) fun _ => ?_
    refine Tri.bind (stage _ _ (Tri.bind (h.ask _) fun _ => Tri.pure (fun _ h => h))) fun _ => ?_
    exact stage _ _ (Tri.bind (h.ask _) fun _ => Tri.bind (h.ask _) fun _ => Tri.pure (fun _ h => h))
  · exact Tri.pure (fun _ h => h)
theorem Lax.job (j : Job) : Tri P (runJob core j) (fun v s => P s ∧ (j = .enterInit → Grants core → v = .flag true)) P := by
  cases j <;> unfold runJob
  · refine Tri.bind h.pot fun _ => Tri.bind (R := fun a s => P s ∧ (Grants core → a.1 = true)) (Tri.ask ?_ ?_) fun a => Tri.pure ?_
    · intro s hs _ _; exact h.same s _ hs rfl rfl rfl
    · intro s hs b t r e; exact ⟨h.same s _ hs rfl rfl rfl, fun g => g _ _ _ _ e⟩
    · rintro s ⟨hs, hg⟩; exact ⟨hs, fun _ g => by rw [hg g]⟩
  · refine Tri.bind h.pot fun _ => Tri.bind (h.ask _) fun _ => Tri.bind (h.ask _) fun _ => ?_
    refine Tri.bind (h.set (fun _ => rfl) (fun _ => rfl) (fun _ => rfl)) fun _ => Tri.bind (h.note rfl) fun _ => ?_
    exact Tri.bind (h.ask _) fun _ => Tri.pure fun s hs => ⟨hs, fun e => by cases e⟩
  all_goals exact Tri.bind (h.ask _) fun _ => Tri.pure fun s hs => ⟨hs, fun e => by cases e⟩
theorem Lax.pre (t : Time) (it : Bool) : Tri P (preTimeRequest t it) (fun _ => P) P := by
  unfold preTimeRequest
  exact Tri.get fun a => Tri.pre (h.note rfl) (fun s h => h.1)
end

section
variable {I : Mode → List Note → Prop} {S : Mode → Mode → Prop} (h : Closed (core := core) I S)
include h

/-- A change of mode. -/
theorem Closed.mode {M M' : Mode → Prop} {E : St → Prop} (new : Mode) (hM : ∀ m, M m → S m new) (hM' : M' new) :
    Tri (Pm core I M) (updateMode new) (fun _ => Pm core I M') E := by
  intro s hs
  rw [updateMode_eq]
  exact ⟨h.step _ _ _ (hM _ hs.2.2) hs.1, hs.2.1, hM'⟩

/-- The mode is set without a word. -/
theorem Closed.setMode {M M' : Mode → Prop} {E : St → Prop} (new : Mode) (hM : ∀ m, M m → S m new ∧ emit new m = []) (hM' : M' new) :
    Tri (Pm core I M) (App.set fun s => { s with mode := new }) (fun _ => Pm core I M') E := by
  intro s hs
  have := h.step _ _ _ (hM _ hs.2.2).1 hs.1
  rw [(hM _ hs.2.2).2, List.append_nil] at this
  exact ⟨this, hs.2.1, hM'⟩

theorem Closed.work (k : Slot) {M : Mode → Prop} {s : St} (hs : Pm core I M s) :
    Pm core I M (App.work core k s).2 ∧ (App.work core k s).1 = .ok () := by
  unfold App.work
  cases hk : s.fut k with
  | invalid => exact ⟨hs, rfl⟩
  | done r => exact ⟨hs, rfl⟩
  | todo j =>
    dsimp only
    have hj := (h.lax M).job (core := core) j s hs
    generalize runJob core j s = x at hj
    obtain ⟨r, s'⟩ := x
    dsimp only
    have hp : Pm core I M s' ∧ ∀ v, r = .ok v → j = .enterInit → Grants core → v = .flag true := by
      cases r with
      | ok v => exact ⟨hj.1, fun v' e => by cases e; exact hj.2⟩
      | _ => exact ⟨hj, fun v e => by cases e⟩
    refine ⟨⟨hp.1.1, ⟨?_, ?_⟩, hp.1.2.2⟩, rfl⟩
    · intro j' e
      by_cases ek : Slot.init = k
      · simp [setFut, App.set, ek] at e
      · simp only [setFut, App.set, if_neg ek] at e; exact hp.1.2.1.1 j' e
    · intro v e g
      by_cases ek : Slot.init = k
      · subst ek
        simp [setFut, App.set] at e
        exact hp.2 v e (hs.2.1.1 j hk) g
      · simp only [setFut, App.set, if_neg ek] at e; exact hp.1.2.1.2 v e g

theorem Closed.take (k : Slot) {M : Mode → Prop} :
    Tri (Pm core I M) (App.take core k) (fun v s => Pm core I M s ∧ (k = .init → Grants core → v = .flag true)) (Pm core I M) := by
  unfold App.take
  refine Tri.bind (R := fun _ => Pm core I M) ?_ fun _ => ?_
  · intro s hs
    have := h.work k hs
    generalize App.work core k s = x at this
    obtain ⟨o, s'⟩ := x
    obtain ⟨h1, h2⟩ := this
    dsimp only at h2
    subst h2
    exact h1
  refine Tri.get fun a => ?_
  cases ha : a.fut k with
  | invalid => exact Tri.throw fun s hs => hs.1
  | todo j => exact Tri.throw fun s hs => hs.1
  | done r =>
    dsimp only
    rintro s ⟨hs, rfl⟩
    have hp : Pm core I M { s with fut := fun j => if j = k then .invalid else s.fut j } := by
      refine ⟨hs.1, ⟨?_, ?_⟩, hs.2.2⟩
      · intro j' e
        by_cases ek : Slot.init = k
        · simp [ek] at e
        · simp only [if_neg ek] at e; exact hs.2.1.1 j' e
      · intro v e g
        by_cases ek : Slot.init = k
        · simp [ek] at e
        · simp only [if_neg ek] at e; exact hs.2.1.2 v e g
    simp only [setFut, App.set, bind_eq, Act.bind]
    cases r with
    | ok v => exact ⟨hp, fun ek g => by subst ek; exact hs.2.1.2 v ha g⟩
    | _ => exact hp

theorem Closed.launch (k : Slot) (j : Job) (hj : k = .init → j = .enterInit) {M : Mode → Prop} {E : St → Prop} :
    Tri (Pm core I M) (App.launch k j) (fun _ => Pm core I M) E := by
  intro s hs
  refine ⟨hs.1, ⟨?_, ?_⟩, hs.2.2⟩
  · intro j' e
    by_cases ek : Slot.init = k
    · simp [ek] at e; rw [← e]; exact hj ek.symm
    · simp only [if_neg ek] at e; exact hs.2.1.1 j' e
  · intro v e g
    by_cases ek : Slot.init = k
    · simp [ek] at e
    · simp only [if_neg ek] at e; exact hs.2.1.2 v e g

end

theorem Pm.weak {I : Mode → List Note → Prop} {M M' : Mode → Prop} (hM : ∀ m, M m → M' m) (s : St) (hs : Pm core I M s) : Pm core I M' s :=
  ⟨hs.1, hs.2.1, hM _ hs.2.2⟩

/-- Any mode. -/
def anyMode : Mode → Prop := fun _ => True
/-- Any mode but the last. -/
def notFin : Mode → Prop := fun m => m ≠ .finalize

end App
end Verif
