import Verif.Lemmas.Api
/-! # The invariant is kept by every call -/
namespace Verif
namespace App

/-- From `P`, the piece ends with `Q` when it returns, with `E` when it does not. -/
def Tri (P : St → Prop) (x : Act α) (Q : α → St → Prop) (E : St → Prop) : Prop :=
  ∀ s, P s → (match x s with | (.ok a, s') => Q a s' | (_, s') => E s')

theorem Tri.bind {P : St → Prop} {x : Act α} {f : α → Act β} {R : α → St → Prop} {Q : β → St → Prop} {E : St → Prop}
    (h1 : Tri P x R E) (h2 : ∀ a, Tri (R a) (f a) Q E) : Tri P (x >>= f) Q E := by
  intro s hs
  have := h1 s hs
  rw [bind_eq]
  unfold Act.bind
  split at this
  · next a s' e => rw [e]; exact h2 a s' this
  · next o s' hne e =>
    rw [e]
    cases o with
    | ok a => exact absurd rfl (hne a)
    | _ => exact this

theorem Tri.pure {P : St → Prop} {a : α} {Q : α → St → Prop} {E : St → Prop} (h : ∀ s, P s → Q a s) : Tri P (pure a : Act α) Q E :=
  fun s hs => h s hs

theorem Tri.throw {P : St → Prop} {e : Exn} {Q : α → St → Prop} {E : St → Prop} (h : ∀ s, P s → E s) : Tri P (Act.throw e : Act α) Q E :=
  fun s hs => h s hs

theorem Tri.set {P : St → Prop} {f : St → St} {Q : Unit → St → Prop} {E : St → Prop} (h : ∀ s, P s → Q () (f s)) : Tri P (App.set f) Q E :=
  fun s hs => h s hs

theorem Tri.get {P : St → Prop} {f : St → Act β} {Q : β → St → Prop} {E : St → Prop}
    (h : ∀ a, Tri (fun s => P s ∧ s = a) (f a) Q E) : Tri P (App.get >>= f) Q E := by
  intro s hs
  exact h s s ⟨hs, rfl⟩

theorem Tri.pre {P P' : St → Prop} {x : Act α} {Q : α → St → Prop} {E : St → Prop} (h : Tri P' x Q E) (hp : ∀ s, P s → P' s) : Tri P x Q E :=
  fun s hs => h s (hp s hs)

theorem Tri.post {P : St → Prop} {x : Act α} {Q Q' : α → St → Prop} {E E' : St → Prop} (h : Tri P x Q' E')
    (hq : ∀ a s, Q' a s → Q a s) (he : ∀ s, E' s → E s) : Tri P x Q E := by
  intro s hs
  have := h s hs
  split at this
  · exact hq _ _ this
  · exact he _ this

theorem Tri.ask {core : Core} {c : Call} {P : St → Prop} {Q : Bool × Time × Result → St → Prop} {E : St → Prop}
    (h1 : ∀ s, P s → ∀ e, core (s.calls ++ [c]) = .throws e → E { s with calls := s.calls ++ [c] })
    (h2 : ∀ s, P s → ∀ b t r, core (s.calls ++ [c]) = .gives b t r → Q (b, t, r) { s with calls := s.calls ++ [c] }) :
    Tri P (App.ask core c) Q E := by
  intro s hs
  unfold App.ask
  dsimp only
  split
  · next e he =>
    split at he
    · cases he
    · next b t r hc => cases he; exact h2 s hs b t r hc
  · next o s' hne he =>
    split at he
    · next e hc => cases he; exact h1 s hs e hc
    · next b t r hc => cases he; exact absurd rfl (hne _)

theorem Tri.rethrow {P : St → Prop} {x : Act α} {Q : α → St → Prop} {E E' : St → Prop} {p : Exn → Bool} {oe : Act Unit}
    (h : Tri P x Q E') (he : ∀ s, E' s → E s) (ho : ∀ s, E' s → E (oe s).2) : Tri P (Act.rethrow p oe x) Q E := by
  intro s hs
  have := h s hs
  unfold Act.rethrow
  split at this
  · next e => rw [e]; exact this
  · next o s' hne e =>
    rw [e]
    cases o with
    | ok a => exact absurd rfl (hne a)
    | throws e' =>
      dsimp only
      by_cases hp : p e' = true
      · rw [if_pos hp]; exact ho _ this
      · rw [if_neg hp]; exact he _ this
    | crash => exact he _ this
    | busy => exact he _ this

variable {core : Core}

/-- The invariant of a state. -/
def Js (core : Core) (s : St) : Prop := J core s.mode s.fut s.calls

/-- Nothing is pending, and the core has not been told that the federate is done. -/
structure Idle (core : Core) (s : St) : Prop where
  inv : Js core s
  free : ∀ k, s.fut k = .invalid
  open_ : ¬ HadFin core s.calls

theorem not_fin_snoc {calls : List Call} {c : Call} (h : ¬ HadFin core calls) (hc : c ≠ .finalize) : ¬ HadFin core (calls ++ [c]) := by
  rintro ⟨p, b, t, r, hp⟩
  rcases answered_snoc hp with hp | ⟨_, e, _⟩
  · exact h ⟨p, b, t, r, hp⟩
  · exact hc e.symm

/-- Calls that need nothing before them. -/
def Call.plain : Call → Bool
  | .enterInit _ | .currentTime | .offer | .commands => true
  | _ => false

theorem J.plain {m f calls} (h : J core m f calls) {c : Call} (hc : c.plain = true) (hn : ¬ HadFin core calls) : J core m f (calls ++ [c]) := by
  apply h.ask
  · rintro rfl; cases hc
  · rintro ⟨_, rfl⟩; cases hc
  · rintro ⟨_, rfl | ⟨_, rfl⟩⟩ <;> cases hc
  · exact fun e => absurd e hn

theorem Idle.ask {s : St} (h : Idle core s) {c : Call} (hc : c ≠ .finalize)
    (h1 : (∃ it, c = .enterExec it) → HadInit core s.calls)
    (h2 : (∃ t, c = .timeRequest t ∨ ∃ it, c = .timeRequestIter t it) → HadExec core s.calls) :
    Idle core { s with calls := s.calls ++ [c] } :=
  ⟨J.ask h.inv hc h1 h2 (fun e => absurd e h.open_), h.free, not_fin_snoc h.open_ hc⟩

theorem Idle.plain {s : St} (h : Idle core s) {c : Call} (hc : c.plain = true) : Idle core { s with calls := s.calls ++ [c] } :=
  h.ask (by rintro rfl; cases hc) (by rintro ⟨_, rfl⟩; cases hc) (by rintro ⟨_, rfl | ⟨_, rfl⟩⟩ <;> cases hc)

/-- What holds of mode, futures and calls does not depend on the rest. -/
theorem Idle.same {s s' : St} (h : Idle core s) (h1 : s'.mode = s.mode) (h2 : s'.fut = s.fut) (h3 : s'.calls = s.calls) : Idle core s' := by
  obtain ⟨a, b, c⟩ := h
  refine ⟨?_, ?_, ?_⟩
  · unfold Js at *; rw [h1, h2, h3]; exact a
  · rw [h2]; exact b
  · rw [h3]; exact c

theorem updateMode_snd (new : Mode) (s : St) :
    (updateMode new s).2.mode = new ∧ (updateMode new s).2.fut = s.fut ∧ (updateMode new s).2.calls = s.calls ∧ (updateMode new s).1 = .ok () := by
  unfold updateMode App.set
  dsimp only
  refine ⟨?_, ?_, ?_, rfl⟩ <;> (split <;> (try split) <;> rfl)

theorem Idle.toMode {s : St} (h : Idle core s) {new : Mode} (h1 : new = .initializing → HadInit core s.calls ∧ InInit core s.calls) (h5 : new = .finished → Ended core s.calls)
    (h2 : new = .executing ∨ new = .pendingTime ∨ new = .pendingIterTime → HadExec core s.calls) (h3 : new ≠ .finalize) :
    Idle core (updateMode new s).2 := by
  obtain ⟨e1, e2, e3, _⟩ := updateMode_snd new s
  refine ⟨?_, ?_, ?_⟩
  · unfold Js; rw [e1, e2, e3]
    exact J.mode h.inv h.free h1 h5 h2 (fun e => absurd e h3) (fun e => absurd e h.open_)
  · rw [e2]; exact h.free
  · rw [e3]; exact h.open_

theorem tri_updateMode {P : St → Prop} {Q : Unit → St → Prop} {E : St → Prop} {new : Mode} (h : ∀ s, P s → Q () (updateMode new s).2) :
    Tri P (updateMode new) Q E := by
  intro s hs
  have := (updateMode_snd new s).2.2.2
  split
  · next a s' e => have := h s hs; rw [e] at this; exact this
  · next o s' hne e => rw [e] at this; exact absurd this (hne ())

theorem tri_note {P : St → Prop} {Q : Unit → St → Prop} {E : St → Prop} {n : Note} (h : ∀ s, P s → Q () { s with notes := s.notes ++ [n] }) :
    Tri P (note n) Q E := Tri.set h

/-- Mode, futures and calls. -/
def Like (m : Mode) (f : Slot → Future) (calls : List Call) (s : St) : Prop := s.mode = m ∧ s.fut = f ∧ s.calls = calls

/-- The potential interfaces make plain calls only. -/
theorem tri_pot (P : St → Prop) (hP : ∀ s s' c, P s → c.plain = true → s'.mode = s.mode → s'.fut = s.fut → s'.calls = s.calls ++ [c] → P s')
    (hQ : ∀ s s', P s → s'.mode = s.mode → s'.fut = s.fut → s'.calls = s.calls → P s') : Tri P (potSequence core) (fun _ => P) P := by
  have ask : ∀ c : Call, c.plain = true → Tri P (App.ask core c) (fun _ => P) P := fun c hc =>
    Tri.ask (fun s hs e _ => hP s _ c hs hc rfl rfl rfl) (fun s hs b t r _ => hP s _ c hs hc rfl rfl rfl)
  have pot : ∀ n : Nat, Tri P (App.set fun s => { s with potSeq := n }) (fun _ => P) P := fun n =>
    Tri.set (fun s hs => hQ s _ hs rfl rfl rfl)
  have stage : ∀ (n : Nat) (x : Act Unit), Tri P x (fun _ => P) P → Tri P (potStage n x) (fun _ => P) P := by
    intro n x hx
    unfold potStage
    refine Tri.get fun a => Tri.pre ?_ (fun s h => h.1)
    split
    · exact Tri.bind hx (fun _ => pot _)
    · exact Tri.pure (fun _ h => h)
  unfold potSequence
  refine Tri.get fun a => Tri.pre ?_ (fun s h => h.1)
  split
  · refine Tri.bind (stage _ _ (Tri.bind (ask _ rfl) fun _ => Tri.pure (fun _ h => h))) fun _ => ?_
    refine Tri.bind (stage _ _ (Tri.bind (ask _ rfl) fun _ => Tri.pure (fun _ h => h))) fun _ => ?_
    exact stage _ _ (Tri.bind (ask _ rfl) fun _ => Tri.bind (ask _ rfl) fun _ => Tri.pure (fun _ h => h))
  · exact Tri.pure (fun _ h => h)

/-- Outside the last three modes the core has not been told that the federate is done. -/
theorem J.open_ {m f calls} (h : J core m f calls) (h1 : m ≠ .finalize) (h2 : m ≠ .error) (h3 : m ≠ .pendingFinalize) : ¬ HadFin core calls := by
  intro e
  rcases h.over e with h | h | ⟨h, _⟩
  · exact h1 h
  · exact h2 h
  · exact h3 h

theorem answered_last {calls : List Call} {c : Call} {b t r} (h : core (calls ++ [c]) = .gives b t r) :
    Answered core (calls ++ [c]) calls c b t r := ⟨⟨[], rfl⟩, h⟩

/-- What a thread does. -/
theorem runJob_spec {s : St} {k : Slot} {j : Job} {f0 : Slot → Future} (hj : J core k.pend f0 s.calls) (hf : ∀ i, f0 i = .invalid)
    (hfit : k.fits j) (hb : ∀ it, j = .enterExec it → HadInit core s.calls) (hn : ¬ HadFin core s.calls) :
    (match runJob core j s with
     | (.ok v, s') => s'.mode = s.mode ∧ s'.fut = s.fut ∧ J core k.pend f0 s'.calls ∧ Fact core s'.calls k v
     | (_, s') => s'.mode = s.mode ∧ s'.fut = s.fut ∧ J core k.pend f0 s'.calls) := by
  let P : St → Prop := fun s' => (s'.mode = s.mode ∧ s'.fut = s.fut ∧ J core k.pend f0 s'.calls) ∧ ¬ HadFin core s'.calls
  have hs : P s := ⟨⟨rfl, rfl, hj⟩, hn⟩
  have pot : Tri P (potSequence core) (fun _ => P) P := by
    apply tri_pot
    · rintro a b c ⟨⟨h1, h2, h3⟩, h4⟩ hc e1 e2 e3
      refine ⟨⟨e1.trans h1, e2.trans h2, ?_⟩, ?_⟩
      · rw [e3]; exact h3.plain hc h4
      · rw [e3]; exact not_fin_snoc h4 (by rintro rfl; cases hc)
    · rintro a b ⟨⟨h1, h2, h3⟩, h4⟩ e1 e2 e3
      exact ⟨⟨e1.trans h1, e2.trans h2, by rw [e3]; exact h3⟩, by rw [e3]; exact h4⟩
  have askP : ∀ {c : Call} {P' : St → Prop} (_ : ∀ s, P' s → P s) (_ : c ≠ .finalize) (_ : ∀ s, P' s → (∃ it, c = .enterExec it) → HadInit core s.calls)
      (_ : ∀ s, P' s → (∃ t, c = .timeRequest t ∨ ∃ it, c = .timeRequestIter t it) → HadExec core s.calls),
      Tri P' (App.ask core c) (fun x s' => P s' ∧ ∃ p, s'.calls = p ++ [c] ∧ core s'.calls = .gives x.1 x.2.1 x.2.2) P := by
    intro c P' hP h1 h2 h3
    have step : ∀ s', P' s' → P { s' with calls := s'.calls ++ [c] } := by
      intro s' h
      obtain ⟨⟨e1, e2, e3⟩, e4⟩ := hP s' h
      exact ⟨⟨e1, e2, e3.ask h1 (h2 s' h) (h3 s' h) (fun e => absurd e e4)⟩, not_fin_snoc e4 h1⟩
    exact Tri.ask (fun s' h _ _ => step s' h) (fun s' h b t r e => ⟨step s' h, s'.calls, rfl, e⟩)
  have fin : ∀ {α : Type} {x : Act Val} {P' : St → Prop}, Tri P' x (fun v s' => P s' ∧ Fact core s'.calls k v) P → P' s → (match x s with
     | (.ok v, s') => s'.mode = s.mode ∧ s'.fut = s.fut ∧ J core k.pend f0 s'.calls ∧ Fact core s'.calls k v
     | (_, s') => s'.mode = s.mode ∧ s'.fut = s.fut ∧ J core k.pend f0 s'.calls) := by
    intro _ x P' h hp
    have := h s hp
    split at this
    · next e => rw [e]; exact ⟨this.1.1.1, this.1.1.2.1, this.1.1.2.2, this.2⟩
    · next o s' hne e =>
      rw [e]
      cases o with
      | ok a => exact absurd rfl (hne a)
      | _ => exact this.1
  cases k with
  | init =>
    cases hfit
    refine fin (α := Val) (P' := P) ?_ hs
    unfold runJob
    refine Tri.bind pot fun _ => Tri.bind (askP (fun _ h => h) (by simp) (fun _ _ h => by simp at h) (fun _ _ h => by simp at h)) fun a => Tri.pure ?_
    rintro s' ⟨h, p, e1, e2⟩
    rw [e1] at e2
    refine ⟨h, by rw [e1]; exact ⟨_, _, _, _, answered_last e2⟩, fun ea => ?_⟩
    have ea : a.1 = true := by simpa using ea
    rw [ea] at e2
    rw [e1]
    exact .inl ⟨_, _, _, answered_last e2⟩
  | exec =>
    rcases hfit with ⟨it, rfl⟩ | ⟨it, rfl⟩
    · refine fin (α := Val) (P' := fun s' => P s' ∧ HadInit core s'.calls) ?_ ⟨hs, hb it rfl⟩
      unfold runJob
      refine Tri.bind (R := fun x s' => P s' ∧ HadInit core s'.calls ∧ ∃ p, s'.calls = p ++ [.enterExec it] ∧ core s'.calls = .gives x.1 x.2.1 x.2.2) ?_ fun a => Tri.pure ?_
      · have step : ∀ s', P s' ∧ HadInit core s'.calls → P { s' with calls := s'.calls ++ [.enterExec it] } := by
          rintro s' ⟨⟨⟨e1, e2, e3⟩, e4⟩, e5⟩
          exact ⟨⟨e1, e2, e3.ask (by simp) (fun _ => e5) (fun h => by simp at h) (fun e => absurd e e4)⟩, not_fin_snoc e4 (by simp)⟩
        exact Tri.ask (fun s' h _ _ => step s' h) (fun s' h b t r e => ⟨step s' h, h.2.mono _, s'.calls, rfl, e⟩)
      · rintro s' ⟨h, hi, p, e1, e2⟩
        rw [e1] at e2
        refine ⟨h, hi, ?_, ?_, ?_⟩ <;> (intro er; simp only [Val.toIter] at er; rw [er] at e2; rw [e1])
        · exact ⟨_, _, _, _, answered_last e2⟩
        · exact .inr ⟨_, _, _, _, answered_last e2⟩
        · exact .inl ⟨_, _, _, _, answered_last e2⟩
    · refine fin (α := Val) (P' := P) ?_ hs
      unfold runJob
      refine Tri.bind pot fun _ => Tri.bind (askP (fun _ h => h) (by simp) (fun _ _ h => by simp at h) (fun _ _ h => by simp at h)) fun a => ?_
      refine Tri.pre (P' := fun s' => P s' ∧ HadInit core s'.calls) ?_ ?_
      · refine Tri.bind (R := fun _ s' => P s' ∧ HadInit core s'.calls) ?_ fun a => ?_
        · have step : ∀ s', P s' ∧ HadInit core s'.calls → P { s' with calls := s'.calls ++ [.currentTime] } := by
            rintro s' ⟨⟨⟨e1, e2, e3⟩, e4⟩, e5⟩
            exact ⟨⟨e1, e2, e3.plain rfl e4⟩, not_fin_snoc e4 (by simp)⟩
          exact Tri.ask (fun s' h _ _ => step s' h) (fun s' h b t r e => ⟨step s' h, h.2.mono _⟩)
        refine Tri.bind (R := fun _ s' => P s' ∧ HadInit core s'.calls) (Tri.set fun s' h => h) fun _ => ?_
        refine Tri.bind (R := fun _ s' => P s' ∧ HadInit core s'.calls) (Tri.set fun s' h => h) fun _ => ?_
        refine Tri.bind (R := fun x s' => P s' ∧ HadInit core s'.calls ∧ ∃ p, s'.calls = p ++ [.enterExec it] ∧ core s'.calls = .gives x.1 x.2.1 x.2.2) ?_ fun a => Tri.pure ?_
        · have step : ∀ s', P s' ∧ HadInit core s'.calls → P { s' with calls := s'.calls ++ [.enterExec it] } := by
            rintro s' ⟨⟨⟨e1, e2, e3⟩, e4⟩, e5⟩
            exact ⟨⟨e1, e2, e3.ask (by simp) (fun _ => e5) (fun h => by simp at h) (fun e => absurd e e4)⟩, not_fin_snoc e4 (by simp)⟩
          exact Tri.ask (fun s' h _ _ => step s' h) (fun s' h b t r e => ⟨step s' h, h.2.mono _, s'.calls, rfl, e⟩)
        · rintro s' ⟨h, hi, p, e1, e2⟩
          rw [e1] at e2
          refine ⟨h, hi, ?_, ?_, ?_⟩ <;> (intro er; simp only [Val.toIter] at er; rw [er] at e2; rw [e1])
          · exact ⟨_, _, _, _, answered_last e2⟩
          · exact .inr ⟨_, _, _, _, answered_last e2⟩
          · exact .inl ⟨_, _, _, _, answered_last e2⟩
      · rintro s' ⟨h, p, e1, e2⟩
        refine ⟨h, ?_⟩
        rw [e1] at e2 ⊢
        exact ⟨_, _, _, _, answered_last e2⟩
  | time =>
    obtain ⟨n, rfl⟩ := hfit
    refine fin (α := Val) (P' := P) ?_ hs
    unfold runJob
    refine Tri.bind (askP (fun _ h => h) (by simp) (fun _ _ h => by simp at h) (fun s' h _ => h.1.2.2.exec (by simp [Slot.pend]))) fun a => Tri.pure ?_
    rintro s' ⟨h, p, e1, e2⟩
    refine ⟨h, fun er => ?_⟩
    rw [e1] at e2 ⊢
    exact .inr (.inl ⟨_, _, _, _, _, answered_last e2, er⟩)
  | iterTime =>
    obtain ⟨n, it, rfl⟩ := hfit
    refine fin (α := Val) (P' := P) ?_ hs
    unfold runJob
    refine Tri.bind (askP (fun _ h => h) (by simp) (fun _ _ h => by simp at h) (fun s' h _ => h.1.2.2.exec (by simp [Slot.pend]))) fun a => Tri.pure ?_
    rintro s' ⟨h, p, e1, e2⟩
    refine ⟨h, fun er => ?_⟩
    rw [e1] at e2 ⊢
    exact .inr (.inr ⟨_, _, _, _, _, _, answered_last e2, er⟩)
  | iterInit =>
    cases hfit
    refine fin (α := Val) (P' := P) ?_ hs
    unfold runJob
    refine Tri.bind (askP (fun _ h => h) (by simp) (fun _ _ h => by simp at h) (fun _ _ h => by simp at h)) fun a => Tri.pure ?_
    rintro s' ⟨h, p, e1, e2⟩
    exact ⟨h, trivial⟩
  | finalize =>
    cases hfit
    unfold runJob
    simp only [bind_eq, Act.bind, App.ask]
    cases e : core (s.calls ++ [.finalize]) with
    | throws x =>
      dsimp only
      exact ⟨rfl, rfl, hj.ask_fin hn e⟩
    | gives b t r =>
      dsimp only
      have hh : HadFin core (s.calls ++ [.finalize]) := ⟨_, _, _, _, answered_last e⟩
      refine ⟨rfl, rfl, ?_, hh⟩
      exact { ord := hj.ord.snoc (by rintro ⟨_, h⟩; cases h) (by rintro ⟨_, h | ⟨_, h⟩⟩ <;> cases h) (fun e => absurd e hn)
              tidy := fun k h => absurd (hf k) h
              jobs := fun k j h => by rw [hf k] at h; cases h
              init := fun e => by simp [Slot.pend] at e
              stop := fun e => by simp [Slot.pend] at e
              exec := fun e => by simp [Slot.pend] at e
              fin := fun e => by simp [Slot.pend] at e
              begun := fun it e => by rw [hf] at e; cases e
              told := fun k v e => by rw [hf] at e; cases e
              over := fun _ => .inr (.inr ⟨rfl, fun j => by rw [hf]; simp⟩) }

/-- A thread gets done. -/
theorem work_spec {s : St} (k : Slot) (h : Js core s) :
    Js core (work core k s).2 ∧ (work core k s).1 = .ok () ∧ (work core k s).2.mode = s.mode ∧ ∀ j, (work core k s).2.fut k ≠ .todo j := by
  unfold work
  cases hk : s.fut k with
  | invalid => exact ⟨h, rfl, rfl, fun j => by rw [hk]; simp⟩
  | done r => exact ⟨h, rfl, rfl, fun j => by rw [hk]; simp⟩
  | todo j =>
    dsimp only
    have hm : s.mode = k.pend := h.tidy k (by rw [hk]; simp)
    have hj : J core k.pend s.fut s.calls := by rw [← hm]; exact h
    let f0 : Slot → Future := fun i => if i = k then .invalid else s.fut i
    have hj0 : J core k.pend f0 s.calls := hj.taken
    have hf : ∀ i, f0 i = .invalid := by
      intro i
      by_cases e : i = k
      · simp [f0, e]
      · simp only [f0, if_neg e]; exact hj.others i e
    have hn : ¬ HadFin core s.calls := by
      intro e
      rcases hj.over e with h | h | ⟨h, h'⟩
      · cases k <;> simp [Slot.pend] at h
      · cases k <;> simp [Slot.pend] at h
      · have : k = .finalize := by cases k <;> simp [Slot.pend] at h; rfl
        subst this; exact h' j hk
    have hr := runJob_spec hj0 hf (h.jobs k j hk) (fun it e => h.begun it (by
      have : k = .exec := by have := h.jobs k j hk; subst e; cases k <;> simp [Slot.fits] at this <;> rfl
      subst this; rw [hk, e])) hn
    generalize hx : runJob core j s = x at hr
    obtain ⟨r, s'⟩ := x
    dsimp only
    have hr' : s'.mode = s.mode ∧ s'.fut = s.fut ∧ J core k.pend f0 s'.calls ∧ ∀ v, r = .ok v → Fact core s'.calls k v := by
      cases r with
      | ok v => exact ⟨hr.1, hr.2.1, hr.2.2.1, fun v' e => by cases e; exact hr.2.2.2⟩
      | _ => exact ⟨hr.1, hr.2.1, hr.2.2, fun v' e => by cases e⟩
    obtain ⟨e1, e2, e3, e4⟩ := hr'
    refine ⟨?_, rfl, e1, ?_⟩
    · unfold Js setFut App.set
      dsimp only
      rw [e1, e2, hm]
      have := e3.done (r := r) e4
      have ef : (fun i => if i = k then Future.done r else f0 i) = (fun i => if i = k then Future.done r else s.fut i) := by
        funext i; by_cases e : i = k <;> simp [f0, e]
      rw [ef] at this
      exact this
    · intro j'; simp [setFut, App.set]

/-- A pending result is waited for and taken. -/
theorem tri_take (k : Slot) : Tri (fun s => Js core s ∧ s.mode = k.pend) (take core k)
    (fun v s' => Js core s' ∧ s'.mode = k.pend ∧ (∀ i, s'.fut i = .invalid) ∧ Fact core s'.calls k v)
    (fun s' => Js core s' ∧ s'.mode = k.pend ∧ ∀ i, s'.fut i = .invalid) := by
  unfold take
  refine Tri.bind (R := fun _ s' => Js core s' ∧ s'.mode = k.pend ∧ ∀ j, s'.fut k ≠ .todo j) ?_ fun _ => ?_
  · rintro s ⟨h, hm⟩
    obtain ⟨h1, h2, h3, h4⟩ := work_spec k h
    generalize work core k s = x at *
    obtain ⟨o, s'⟩ := x
    dsimp only at h1 h2 h3 h4
    subst h2
    exact ⟨h1, h3.trans hm, h4⟩
  refine Tri.get fun a => ?_
  have key : ∀ s, (Js core s ∧ s.mode = k.pend ∧ ∀ j, s.fut k ≠ .todo j) → ∀ i, i ≠ k → s.fut i = .invalid := by
    rintro s ⟨h, hm, _⟩ i hi
    have h : J core k.pend s.fut s.calls := by rw [← hm]; exact h
    exact h.others i hi
  cases ha : a.fut k with
  | todo j =>
    rintro s ⟨⟨_, _, h⟩, rfl⟩
    exact absurd ha (h j)
  | invalid =>
    refine Tri.throw ?_
    rintro s ⟨h, rfl⟩
    refine ⟨h.1, h.2.1, fun i => ?_⟩
    by_cases e : i = k
    · rw [e]; exact ha
    · exact key _ h i e
  | done r =>
    dsimp only
    rintro s ⟨h, rfl⟩
    have hx : Js core (setFut k .invalid s).2 ∧ (setFut k .invalid s).2.mode = k.pend ∧ ∀ i, (setFut k .invalid s).2.fut i = .invalid := by
      refine ⟨?_, h.2.1, fun i => ?_⟩
      · have := J.taken (k := k) h.1
        exact this
      · by_cases e : i = k
        · simp [setFut, App.set, e]
        · simp only [setFut, App.set, if_neg e]; exact key _ h i e
    simp only [bind_eq, Act.bind]
    have : setFut k .invalid s = (.ok (), (setFut k .invalid s).2) := rfl
    rw [this]
    dsimp only
    cases r with
    | ok v =>
      refine ⟨hx.1, hx.2.1, hx.2.2, ?_⟩
      exact h.1.told k v ha
    | _ => exact hx

end App
end Verif
