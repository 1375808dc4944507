import Verif.Props.ApiSpec
/-! # Invariant of the federate object of the application interface -/
namespace Verif
namespace App

theorem bind_eq (x : Act α) (f : α → Act β) (s : St) : (x >>= f) s = Act.bind x f s := rfl
theorem pure_eq (a : α) (s : St) : (pure a : Act α) s = (.ok a, s) := rfl

theorem Asked.mono {calls p : List Call} {c : Call} (h : Asked calls p c) (new : List Call) : Asked (calls ++ new) p c := by
  obtain ⟨rest, rfl⟩ := h; exact ⟨rest ++ new, by simp⟩
theorem Answered.mono {core : Core} {calls p : List Call} {c : Call} {b t r} (h : Answered core calls p c b t r) (new : List Call) :
    Answered core (calls ++ new) p c b t r := ⟨h.1.mono new, h.2⟩
theorem HadInit.mono {core calls} (h : HadInit core calls) (new) : HadInit core (calls ++ new) := by
  obtain ⟨p, b, t, r, h⟩ := h; exact ⟨p, b, t, r, h.mono new⟩
theorem HadExec.mono {core calls} (h : HadExec core calls) (new) : HadExec core (calls ++ new) := by
  obtain ⟨p, b, t, r, h⟩ := h; exact ⟨p, b, t, r, h.mono new⟩
theorem HadFin.mono {core calls} (h : HadFin core calls) (new) : HadFin core (calls ++ new) := by
  obtain ⟨p, b, t, r, h⟩ := h; exact ⟨p, b, t, r, h.mono new⟩

theorem InInit.mono {core calls} (h : InInit core calls) (new) : InInit core (calls ++ new) := by
  rcases h with ⟨p, t, r, h⟩ | ⟨p, it, b, t, h⟩
  · exact .inl ⟨p, t, r, h.mono new⟩
  · exact .inr ⟨p, it, b, t, h.mono new⟩
theorem Ended.mono {core calls} (h : Ended core calls) (new) : Ended core (calls ++ new) := by
  rcases h with ⟨p, it, b, t, h⟩ | ⟨p, n, b, t, r, h, h'⟩ | ⟨p, n, it, b, t, r, h, h'⟩
  · exact .inl ⟨p, it, b, t, h.mono new⟩
  · exact .inr (.inl ⟨p, n, b, t, r, h.mono new, h'⟩)
  · exact .inr (.inr ⟨p, n, it, b, t, r, h.mono new, h'⟩)

theorem asked_snoc {calls p : List Call} {c d : Call} (h : Asked (calls ++ [d]) p c) : Asked calls p c ∨ (p = calls ∧ c = d) := by
  obtain ⟨rest, h⟩ := h
  rcases List.eq_nil_or_concat rest with rfl | ⟨r, x, rfl⟩
  · have := List.append_inj' h (by simp)
    exact .inr ⟨this.1.symm, by simpa using this.2.symm⟩
  · left
    refine ⟨r, ?_⟩
    have e : p ++ c :: (r ++ [x]) = (p ++ c :: r) ++ [x] := by simp
    simp only [List.concat_eq_append] at h
    rw [e] at h
    exact (List.append_inj' h (by simp)).1

theorem answered_snoc {core calls p c d b t r} (h : Answered core (calls ++ [d]) p c b t r) :
    Answered core calls p c b t r ∨ (p = calls ∧ c = d ∧ core (calls ++ [d]) = .gives b t r) := by
  rcases asked_snoc h.1 with h1 | ⟨rfl, rfl⟩
  · exact .inl ⟨h1, h.2⟩
  · exact .inr ⟨rfl, rfl, h.2⟩

/-- The mode in which the future is waited for. -/
def Slot.pend : Slot → Mode
  | .init => .pendingInit | .exec => .pendingExec | .time => .pendingTime | .iterTime => .pendingIterTime
  | .finalize => .pendingFinalize | .iterInit => .pendingIterInit

/-- What each thread does. -/
def Slot.fits : Slot → Job → Prop
  | .init, j => j = .enterInit
  | .exec, j => (∃ it, j = .enterExec it) ∨ ∃ it, j = .enterExecFromStart it
  | .time, j => ∃ t, j = .timeRequest t
  | .iterTime, j => ∃ t it, j = .timeRequestIter t it
  | .finalize, j => j = .finalize
  | .iterInit, j => j = .iterInit

/-- What the result of a thread tells. -/
def Fact (core : Core) (calls : List Call) : Slot → Val → Prop
  | .init, v => HadInit core calls ∧ (v = .flag true → InInit core calls)
  | .exec, v => HadInit core calls ∧ (v.toIter.2 = .nextStep → HadExec core calls) ∧ (v.toIter.2 = .iterating → InInit core calls) ∧
      (v.toIter.2 = .halted → Ended core calls)
  | .finalize, _ => HadFin core calls
  | .time, v => v.toTime ≥ cTerm → Ended core calls
  | .iterTime, v => v.toIter.2 = .halted ∨ v.toIter.1 ≥ cTerm → Ended core calls
  | .iterInit, _ => True

theorem Fact.mono {core calls k v} (h : Fact core calls k v) (new) : Fact core (calls ++ new) k v := by
  cases k <;> simp only [Fact] at * <;> try trivial
  · exact ⟨h.1.mono new, fun e => (h.2 e).mono new⟩
  · exact ⟨h.1.mono new, fun e => (h.2.1 e).mono new, fun e => (h.2.2.1 e).mono new, fun e => (h.2.2.2 e).mono new⟩
  · exact fun e => (h e).mono new
  · exact fun e => (h e).mono new
  · exact HadFin.mono h new

/-- The invariant. -/
structure J (core : Core) (m : Mode) (f : Slot → Future) (calls : List Call) : Prop where
  ord : Ordered core calls
  tidy : ∀ k, f k ≠ .invalid → m = k.pend
  jobs : ∀ k j, f k = .todo j → k.fits j
  init : m = .initializing → HadInit core calls ∧ InInit core calls
  stop : m = .finished → Ended core calls
  exec : m = .executing ∨ m = .pendingTime ∨ m = .pendingIterTime → HadExec core calls
  fin : m = .finalize → HadFin core calls
  begun : ∀ it, f .exec = .todo (.enterExec it) → HadInit core calls
  told : ∀ k v, f k = .done (.ok v) → Fact core calls k v
  over : HadFin core calls → m = .finalize ∨ m = .error ∨ (m = .pendingFinalize ∧ ∀ j, f .finalize ≠ .todo j)

theorem Ordered.snoc {core calls} {c : Call} (h : Ordered core calls)
    (h1 : (∃ it, c = .enterExec it) → HadInit core calls)
    (h2 : (∃ t, c = .timeRequest t ∨ ∃ it, c = .timeRequestIter t it) → HadExec core calls)
    (h3 : HadFin core calls → c = .localError ∨ c = .globalError) : Ordered core (calls ++ [c]) := by
  intro p d hd
  rcases asked_snoc hd with hd | ⟨rfl, rfl⟩
  · exact h p d hd
  · exact ⟨h1, h2, h3⟩

/-- A call other than `finalize`. -/
theorem J.ask {core m f calls} (h : J core m f calls) {c : Call} (hc : c ≠ .finalize)
    (h1 : (∃ it, c = .enterExec it) → HadInit core calls)
    (h2 : (∃ t, c = .timeRequest t ∨ ∃ it, c = .timeRequestIter t it) → HadExec core calls)
    (h3 : HadFin core calls → c = .localError ∨ c = .globalError) : J core m f (calls ++ [c]) where
  ord := h.ord.snoc h1 h2 h3
  tidy := h.tidy
  jobs := h.jobs
  init e := ⟨(h.init e).1.mono _, (h.init e).2.mono _⟩
  stop e := (h.stop e).mono _
  exec e := (h.exec e).mono _
  fin e := (h.fin e).mono _
  begun it e := (h.begun it e).mono _
  told k v e := (h.told k v e).mono _
  over := by
    rintro ⟨p, b, t, r, hp⟩
    rcases answered_snoc hp with hp | ⟨_, e, _⟩
    · exact h.over ⟨p, b, t, r, hp⟩
    · exact absurd e.symm hc

/-- The call of `finalize` fails. -/
theorem J.ask_fin {core m f calls e} (h : J core m f calls) (h3 : ¬ HadFin core calls) (ha : core (calls ++ [.finalize]) = .throws e) :
    J core m f (calls ++ [.finalize]) where
  ord := h.ord.snoc (by rintro ⟨_, h⟩; cases h) (by rintro ⟨_, h | ⟨_, h⟩⟩ <;> cases h) (fun e => absurd e h3)
  tidy := h.tidy
  jobs := h.jobs
  init e := ⟨(h.init e).1.mono _, (h.init e).2.mono _⟩
  stop e := (h.stop e).mono _
  exec e := (h.exec e).mono _
  fin e := (h.fin e).mono _
  begun it e := (h.begun it e).mono _
  told k v e := (h.told k v e).mono _
  over := by
    rintro ⟨p, b, t, r, hp⟩
    rcases answered_snoc hp with hp | ⟨rfl, _, e'⟩
    · exact h.over ⟨p, b, t, r, hp⟩
    · rw [ha] at e'; cases e'

/-- The mode changes while nothing is pending. -/
theorem J.mode {core m f calls} (h : J core m f calls) (hf : ∀ k, f k = .invalid) {new : Mode}
    (h1 : new = .initializing → HadInit core calls ∧ InInit core calls) (h5 : new = .finished → Ended core calls) (h2 : new = .executing ∨ new = .pendingTime ∨ new = .pendingIterTime → HadExec core calls)
    (h3 : new = .finalize → HadFin core calls) (h4 : HadFin core calls → new = .finalize ∨ new = .error) : J core new f calls where
  ord := h.ord
  tidy k e := absurd (hf k) e
  jobs k j e := by rw [hf k] at e; cases e
  init := h1
  stop := h5
  exec := h2
  fin := h3
  begun it e := by rw [hf] at e; cases e
  told k v e := by rw [hf] at e; cases e
  over e := by rcases h4 e with h | h <;> simp [h]

/-- Nothing is pending outside pending modes. -/
theorem J.none {core m f calls} (h : J core m f calls) (hm : ∀ k : Slot, m ≠ k.pend) (k : Slot) : f k = .invalid := by
  cases e : f k with
  | invalid => rfl
  | todo j => exact absurd (h.tidy k (by rw [e]; simp)) (hm k)
  | done r => exact absurd (h.tidy k (by rw [e]; simp)) (hm k)

/-- In a pending mode only the future of that mode is valid. -/
theorem J.others {core f calls} {k : Slot} (h : J core k.pend f calls) (j : Slot) (hj : j ≠ k) : f j = .invalid := by
  have e2 : j.pend ≠ k.pend := by revert hj; cases j <;> cases k <;> simp [Slot.pend]
  cases e : f j with
  | invalid => rfl
  | todo x => exact absurd (h.tidy j (by rw [e]; simp)).symm e2
  | done r => exact absurd (h.tidy j (by rw [e]; simp)).symm e2

/-- A thread is started. -/
theorem J.launch {core m f calls} (h : J core m f calls) (hm : ∀ k, f k = .invalid) (k : Slot) (j : Job) (hj : k.fits j)
    (hb : ∀ it, j = .enterExec it → HadInit core calls) (hx : k = .time ∨ k = .iterTime → HadExec core calls)
    (hn : ¬ HadFin core calls) : J core k.pend (fun i => if i = k then .todo j else f i) calls where
  ord := h.ord
  tidy i hi := by
    by_cases e : i = k
    · rw [e]
    · simp only [if_neg e] at hi
      exact absurd (hm i) hi
  jobs i x hi := by
    by_cases e : i = k
    · subst e; simp at hi; subst hi; exact hj
    · simp only [if_neg e] at hi; rw [hm i] at hi; cases hi
  init e := by cases k <;> simp [Slot.pend] at e
  stop e := by cases k <;> simp [Slot.pend] at e
  exec e := hx (by cases k <;> simp [Slot.pend] at e <;> simp)
  fin e := by cases k <;> simp [Slot.pend] at e
  begun it e := by
    by_cases e' : (Slot.exec) = k
    · simp only [if_pos e'] at e; exact hb it (by simpa using e)
    · simp only [if_neg e'] at e; rw [hm] at e; cases e
  told i v e := by
    by_cases e' : i = k
    · simp only [if_pos e'] at e; cases e
    · simp only [if_neg e'] at e; rw [hm] at e; cases e
  over e := absurd e hn

/-- The result of a thread is kept. -/
theorem J.done {core f calls} {k : Slot} {r : Out Val} (h : J core k.pend f calls)  (hv : ∀ v, r = .ok v → Fact core calls k v) : J core k.pend (fun i => if i = k then .done r else f i) calls where
  ord := h.ord
  tidy i hi := by
    by_cases e : i = k
    · rw [e]
    · simp only [if_neg e] at hi; exact h.tidy i hi
  jobs i x hi := by
    by_cases e : i = k
    · subst e; simp at hi
    · simp only [if_neg e] at hi; exact h.jobs i x hi
  init := h.init
  stop := h.stop
  exec := h.exec
  fin := h.fin
  begun it e := by
    by_cases e' : (Slot.exec) = k
    · simp only [if_pos e'] at e; cases e
    · simp only [if_neg e'] at e; exact h.begun it e
  told i v e := by
    by_cases e' : i = k
    · subst e'; simp only [if_pos] at e; exact hv v (by simpa using e)
    · simp only [if_neg e'] at e; exact h.told i v e
  over e := by
    rcases h.over e with h' | h' | ⟨h', h''⟩
    · exact .inl h'
    · exact .inr (.inl h')
    · refine .inr (.inr ⟨h', ?_⟩)
      intro j
      by_cases e' : (Slot.finalize) = k
      · simp [if_pos e']
      · simp only [if_neg e']; exact h'' j

/-- The result of a thread is taken. -/
theorem J.taken {core m f calls} {k : Slot} (h : J core m f calls) : J core m (fun i => if i = k then .invalid else f i) calls where
  ord := h.ord
  tidy i hi := by
    by_cases e : i = k
    · simp [if_pos e] at hi
    · simp only [if_neg e] at hi; exact h.tidy i hi
  jobs i x hi := by
    by_cases e : i = k
    · simp [if_pos e] at hi
    · simp only [if_neg e] at hi; exact h.jobs i x hi
  init := h.init
  stop := h.stop
  exec := h.exec
  fin := h.fin
  begun it e := by
    by_cases e' : (Slot.exec) = k
    · simp [if_pos e'] at e
    · simp only [if_neg e'] at e; exact h.begun it e
  told i v e := by
    by_cases e' : i = k
    · simp [if_pos e'] at e
    · simp only [if_neg e'] at e; exact h.told i v e
  over e := by
    rcases h.over e with h' | h' | ⟨h', h''⟩
    · exact .inl h'
    · exact .inr (.inl h')
    · refine .inr (.inr ⟨h', ?_⟩)
      intro j
      by_cases e' : (Slot.finalize) = k
      · simp [if_pos e']
      · simp only [if_neg e']; exact h'' j

end App
end Verif
