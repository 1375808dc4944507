import Verif.Lemmas.ApiHist
/-!
# C54: what the callbacks of a federate are told

The specification (`Story`, `EntryFirst`, the settled mode) is in `Verif.Props.ApiSpec`.
-/
namespace Verif
namespace App
variable {core : Core}

theorem story_append (a b : List Note) : ∀ m m', Story m (a ++ b) m' ↔ ∃ m1, Story m a m1 ∧ Story m1 b m' := by
  induction a with
  | nil => intro m m'; simp [Story]
  | cons n a ih =>
    intro m m'
    cases n with
    | mode new old =>
      simp only [List.cons_append, Story, ih]
      constructor
      · rintro ⟨h1, h2, m1, h3, h4⟩; exact ⟨m1, ⟨h1, h2, h3⟩, h4⟩
      · rintro ⟨m1, ⟨h1, h2, h3⟩, h4⟩; exact ⟨h1, h2, m1, h3, h4⟩
    | _ => simp only [List.cons_append, Story, ih]

/-- The calls after which the mode callbacks tell one story: no iteration of the initialization is started asynchronously, executing mode is not
requested asynchronously in startup mode, and an asynchronous end is started in executing mode only. -/
def Plain (s : St) (o : Op) : Prop :=
  o ≠ .iterInitAsync ∧ (∀ it, o = .enterExecAsync it → s.mode ≠ .startup) ∧
  (o = .finalizeAsync → s.mode = .executing ∨ s.mode = .finalize ∨ s.mode = .error ∨ s.mode = .pendingFinalize)

theorem closed_story (hg : Grants core) : Closed (core := core) (fun m ns => Story .startup ns m.settled ∧ m ≠ .pendingIterInit)
    (fun a b => a ≠ .pendingIterInit → b ≠ .pendingIterInit ∧ Story a.settled (emit b a) b.settled) where
  plain m ns n hn h := by
    refine ⟨(story_append _ _ _ _).2 ⟨_, h.1, ?_⟩, h.2⟩
    cases n <;> simp_all [Note.harmless, Story]
  step a b ns h1 h2 := by
    have := h1 h2.2
    exact ⟨(story_append _ _ _ _).2 ⟨_, h2.1, this.2⟩, this.1⟩
  update ns t i h := ⟨(story_append _ _ _ _).2 ⟨_, h.1, by simp [Story]⟩, h.2⟩
  late ns t i h := by
    refine ⟨(story_append _ _ _ _).2 ⟨.finished, (story_append _ _ _ _).2 ⟨_, h.1, ?_⟩, ?_⟩, by simp⟩
    · simp [emit, Mode.silent, modeNote, Story, Mode.settled]
    · simp [Story, Mode.settled]
  base a b h := by
    intro ha
    revert h
    cases a <;> cases b <;> simp [baseStep, emit, Mode.silent, modeNote, Story, Mode.settled]
    exact absurd rfl ha
  grants := .inl hg

/-- The mode callbacks tell the story of the federate: each starts where the one before has ended, and the last one ends in the mode that
the federate is in (but for an operation that is pending). -/
theorem C54_story (core : Core) (hg : Grants core) (single pot retrigger : Bool) (now : Time) (ops : List Op)
    (h : History Plain core (start single pot retrigger now) ops) :
    Story .startup (run core (start single pot retrigger now) ops).notes (run core (start single pot retrigger now) ops).mode.settled := by
  refine (keep_run (I := fun m ns => Story .startup ns m.settled ∧ m ≠ .pendingIterInit) (ok := Plain) ?_ (F_start _ _ _ _) ?_ ops h).1
  · simp [start, Story, Mode.settled]
  · intro s o ho hF hI
    refine ((closed_story hg).act o hI hF ?_ ?_ ?_ ?_).1
    · intro it e hm; exact absurd hm (ho.2.1 it e)
    · intro e; exact absurd e ho.1
    · intro e m hm _
      rcases ho.2.2 e with e | e | e | e <;> rw [e] at hm <;> simp [finFrom] at hm
      subst hm
      simp [emit, Mode.silent, Story, Mode.settled]
    · intro _ _ _
      simp [emit, Mode.silent, modeNote, Story, Mode.settled]

/-- The entry to executing mode is announced at most once, and only to federates that got there. -/
theorem C54_entry_once (core : Core) (single pot retrigger : Bool) (now : Time) (ops : List Op) :
    let s := run core (start single pot retrigger now) ops
    s.notes.count .execEntry ≤ 1 ∧ (s.mode.rank < 2 → s.notes.count .execEntry = 0) := by
  intro s
  let I : Mode → List Note → Prop := fun m ns => ns.count .execEntry + (if m.rank < 2 then 1 else 0) ≤ 1
  have hc : Closed (core := core) I (fun a b => 2 ≤ a.rank → 2 ≤ b.rank) := by
    constructor
    · intro m ns n hn h
      have : List.count Note.execEntry [n] = 0 := by cases n <;> simp_all [Note.harmless, List.count_singleton]
      simp only [I, List.count_append, this] at h ⊢; omega
    · intro a b ns h1 h2
      have : List.count Note.execEntry (emit b a) ≤ if a.rank < 2 ∧ ¬ b.rank < 2 then 1 else 0 := by
        cases a <;> cases b <;> decide
      simp only [I, List.count_append] at h2 ⊢
      revert this h1 h2
      split <;> split <;> split <;> intros <;> omega
    · intro ns t i h
      simp only [I, List.count_append, Mode.rank] at h ⊢
      simpa using h
    · intro ns t i h
      simp only [I, List.count_append, Mode.rank] at h ⊢
      have : List.count Note.execEntry (emit .finished .executing) = 0 := by decide
      simpa [this] using h
    · intro a b h; revert h; cases a <;> cases b <;> decide
    · exact .inr (by rintro a b (rfl | rfl) _ h <;> exact absurd h (by decide))
  have hI : I s.mode s.notes := by
    refine keep_run (I := I) (ok := fun _ _ => True) (s := start single pot retrigger now) (by simp [I, start, Mode.rank]) (F_start _ _ _ _) ?_ ops ?_
    · intro s o _ hF hI
      refine (hc.act o hI hF ?_ ?_ ?_ ?_).1
      · intro _ _ _ h; exact absurd h (by decide)
      · intro _ ns h; exact h
      · intro _ m _ _; decide
      · intro _ _ _; decide
    · clear hc s
      generalize start single pot retrigger now = s
      induction ops generalizing s with
      | nil => trivial
      | cons o os ih => exact ⟨trivial, ih _⟩
  refine ⟨by simp only [I] at hI; omega, fun h => ?_⟩
  simp only [I, if_pos h] at hI; omega

/-- The calls after which the end is announced once: no error is raised after the end, and a pending operation is completed before an asynchronous end. -/
def OnceOver (s : St) (o : Op) : Prop :=
  (o = .localError ∨ o = .globalError → s.mode ≠ .finalize ∧ s.mode ≠ .pendingFinalize) ∧
  (o = .finalizeAsync → s.mode ≠ .pendingExec ∧ s.mode ≠ .pendingIterTime)

/-- The end is announced exactly once, when the federate has ended or failed. -/
theorem C54_end_once (core : Core) (single pot retrigger : Bool) (now : Time) (ops : List Op)
    (h : History OnceOver core (start single pot retrigger now) ops) :
    let s := run core (start single pot retrigger now) ops
    s.notes.count .terminated = if s.mode = .finalize ∨ s.mode = .error then 1 else 0 := by
  intro s
  let I : Mode → List Note → Prop := fun m ns => ns.count .terminated = if m = .finalize ∨ m = .error then 1 else 0
  have hc : Closed (core := core) I (fun a b => a = .finalize ∨ a = .error → b = a) := by
    constructor
    · intro m ns n hn h
      have : List.count Note.terminated [n] = 0 := by cases n <;> simp_all [Note.harmless, List.count_singleton]
      simp only [I, List.count_append, this] at h ⊢; omega
    · intro a b ns h1 h2
      simp only [I, List.count_append] at h2 ⊢
      revert h1 h2
      have : List.count Note.terminated (emit b a) = if b ≠ a ∧ (b = .finalize ∨ b = .error) then 1 else 0 := by
        cases a <;> cases b <;> decide
      rw [this]
      intro h1 h2
      rw [h2]
      by_cases ea : a = .finalize ∨ a = .error
      · have := h1 ea; subst this; simp [ea]
      · have : b = .finalize ∨ b = .error → b ≠ a := by rintro e rfl; exact ea e
        by_cases eb : b = .finalize ∨ b = .error
        · simp [ea, eb, this eb]
        · simp [ea, eb]
    · intro ns t i h
      simp only [I, List.count_append] at h ⊢
      simpa using h
    · intro ns t i h
      simp only [I, List.count_append] at h ⊢
      have : List.count Note.terminated (emit .finished .executing) = 0 := by decide
      simpa [this] using h
    · intro a b h; revert h; cases a <;> cases b <;> decide
    · exact .inr (by rintro a b (rfl | rfl) _ h <;> exact absurd h (by decide))
  refine keep_run (I := I) (ok := OnceOver) (s := start single pot retrigger now) (by simp [I, start]) (F_start _ _ _ _) ?_ ops h
  intro s o ho hF hI
  refine (hc.act o hI hF ?_ ?_ ?_ ?_).1
  · intro _ _ _ h; exact absurd h (by decide)
  · intro _ ns h; simpa [I] using h
  · intro e m hm
    have := ho.2 e
    revert this hm
    generalize s.mode = x
    cases x <;> cases m <;> simp [finFrom]
  · intro e hm; have := ho.1 e; rcases hm with e | e <;> simp_all

/-- Before any time is reported the entry to executing mode is announced. -/
theorem C54_entry_first (core : Core) (hg : Grants core) (single pot retrigger : Bool) (now : Time) (ops : List Op) :
    EntryFirst (run core (start single pot retrigger now) ops).notes := by
  let I : Mode → List Note → Prop := fun m ns => EntryFirst ns ∧ (m.rank = 2 → .execEntry ∈ ns)
  have snoc : ∀ ns n, EntryFirst ns → ((∃ t i, n = .timeUpdate t i) → .execEntry ∈ ns) → EntryFirst (ns ++ [n]) := by
    intro ns n h1 h2 p t i rest e
    rcases List.eq_nil_or_concat rest with rfl | ⟨r, x, rfl⟩
    · have := List.append_inj' e (by simp)
      rw [← this.1]
      exact h2 ⟨t, i, by simpa using this.2⟩
    · have e2 : p ++ .timeUpdate t i :: (r ++ [x]) = (p ++ .timeUpdate t i :: r) ++ [x] := by simp
      simp only [List.concat_eq_append] at e
      rw [e2] at e
      exact h1 p t i r (List.append_inj' e (by simp)).1
  have more : ∀ ns l, EntryFirst ns → (∀ n ∈ l, ∀ t i, n ≠ .timeUpdate t i) → EntryFirst (ns ++ l) := by
    intro ns l
    induction l generalizing ns with
    | nil => intro h _; simpa using h
    | cons n l ih =>
      intro h hl
      have : ns ++ n :: l = (ns ++ [n]) ++ l := by simp
      rw [this]
      exact ih _ (snoc ns n h (by rintro ⟨t, i, e⟩; exact absurd e (hl n (by simp) t i))) (fun m hm => hl m (by simp [hm]))
  have quiet : ∀ a b, ∀ n ∈ emit b a, ∀ t i, n ≠ .timeUpdate t i := by
    intro a b n hn t i e
    subst e
    revert hn
    cases a <;> cases b <;> simp [emit, Mode.silent, modeNote]
  have hc : Closed (core := core) I (fun a b => b.rank = 2 → a.rank = 2 ∨ (b = .executing ∧ (a = .initializing ∨ a = .pendingExec))) := by
    constructor
    · rintro m ns n hn ⟨h1, h2⟩
      exact ⟨snoc ns n h1 (by rintro ⟨t, i, rfl⟩; cases hn), fun e => List.mem_append_left _ (h2 e)⟩
    · rintro a b ns h1 ⟨h2, h3⟩
      refine ⟨more _ _ h2 (quiet a b), fun e => ?_⟩
      rcases h1 e with e' | ⟨rfl, e'⟩
      · exact List.mem_append_left _ (h3 e')
      · refine List.mem_append_right _ ?_
        rcases e' with rfl | rfl <;> decide
    · rintro ns t i ⟨h1, h2⟩
      exact ⟨snoc _ _ h1 (fun _ => h2 rfl), fun e => List.mem_append_left _ (h2 rfl)⟩
    · rintro ns t i ⟨h1, h2⟩
      refine ⟨snoc _ _ (more _ _ h1 (quiet _ _)) (fun _ => List.mem_append_left _ (h2 rfl)), fun e => absurd e (by decide)⟩
    · intro a b h; revert h; cases a <;> cases b <;> decide
    · exact .inl hg
  refine (keep_run (I := I) (ok := fun _ _ => True) (s := start single pot retrigger now) ?_ (F_start _ _ _ _) ?_ ops ?_).1
  · refine ⟨?_, fun e => by simp [start, Mode.rank] at e⟩
    intro p t i rest e
    simp [start] at e
  · intro s o _ hF hI
    refine (hc.act o hI hF ?_ ?_ ?_ ?_).1
    · intro _ _ _ h; exact absurd h (by decide)
    · rintro _ ns ⟨h1, _⟩; exact ⟨h1, fun e => absurd e (by decide)⟩
    · intro _ m _ h; exact absurd h (by decide)
    · intro _ _ h; exact absurd h (by decide)
  · clear hc more quiet snoc I
    generalize start single pot retrigger now = s
    induction ops generalizing s with
    | nil => trivial
    | cons o os ih => exact ⟨trivial, ih _⟩

end App
end Verif
