import Verif.Lemmas.CmdQueueIds
/-
Command queue: order of leaving.
-/
namespace Verif.CmdQueue

theorem precedes_cons {e : Ev α} {h : List (Ev α)} {x y : Item α} :
    precedes (e :: h) x y ↔ (e = .called y ∧ .returned x ∈ h) ∨ precedes h x y := by
  constructor
  · rintro ⟨a, b, hab, hx⟩
    cases a with
    | nil =>
      simp only [List.nil_append, List.cons.injEq] at hab
      exact .inl ⟨hab.1, hab.2 ▸ hx⟩
    | cons a0 a =>
      simp only [List.cons_append, List.cons.injEq] at hab
      exact .inr ⟨a, b, hab.2, hx⟩
  · rintro (⟨h1, h2⟩ | ⟨a, b, h1, h2⟩)
    · exact ⟨[], h, by rw [h1]; rfl, h2⟩
    · exact ⟨e :: a, b, by rw [h1]; rfl, h2⟩

theorem precedes_returned {h : List (Ev α)} {x y : Item α} (hp : precedes h x y) : .returned x ∈ h := by
  obtain ⟨a, b, h1, h2⟩ := hp
  rw [h1]
  exact List.mem_append_right _ (List.mem_cons_of_mem _ h2)

theorem precedes_called {h : List (Ev α)} {x y : Item α} (hp : precedes h x y) : .called y ∈ h := by
  obtain ⟨a, b, h1, h2⟩ := hp
  rw [h1]
  simp

theorem precedes_dropped {l : List (Item α)} {h : List (Ev α)} {x y : Item α}
    (hp : precedes (l.map Ev.dropped ++ h) x y) : precedes h x y := by
  induction l with
  | nil => exact hp
  | cons a l ih =>
    rw [List.map_cons, List.cons_append, precedes_cons] at hp
    rcases hp with hp | hp
    · cases hp.1
    · exact ih hp

/-- Steps do not change what came before an earlier call. -/
theorem precedes_step {s s' : St α} {t : Nat} (hI : Ids s) (st : Step s t s') {x y : Item α}
    (hy : .called y ∈ s.hist) (hp : precedes s'.hist x y) : precedes s.hist x y := by
  have hf := hI.fresh y hy
  cases st <;> first
    | exact hp
    | exact precedes_dropped hp
    | (rw [precedes_cons] at hp
       rcases hp with ⟨h1, _⟩ | hp
       · first
           | (cases h1; done)
           | (injection h1 with h1; rw [← h1] at hf; exact absurd hf (by simp))
       · exact hp)

/-- The regular commands inside, in the order they will leave. -/
def line (s : St α) : List (Item α) := s.pull.reverse ++ s.push

/-- `x` stands before `y`. -/
def Before (l : List β) (x y : β) : Prop := ∃ a b, l = a ++ y :: b ∧ x ∈ a

theorem before_append {l r : List β} {x y : β} (h : Before l x y) : Before (l ++ r) x y := by
  obtain ⟨a, b, h1, h2⟩ := h
  exact ⟨a, b ++ r, by rw [h1]; simp, h2⟩

theorem before_cons {l : List β} {i x y : β} (h : Before l x y) : Before (i :: l) x y := by
  obtain ⟨a, b, h1, h2⟩ := h
  exact ⟨i :: a, b, by rw [h1]; rfl, List.mem_cons_of_mem _ h2⟩

theorem before_last {l : List β} {x y : β} (h : x ∈ l) : Before (l ++ [y]) x y := ⟨l, [], rfl, h⟩

theorem before_uncons {l : List β} {i x y : β} (h : Before (i :: l) x y) : x = i ∨ Before l x y := by
  obtain ⟨a, b, h1, h2⟩ := h
  cases a with
  | nil => cases h2
  | cons c a =>
    simp only [List.cons_append, List.cons.injEq] at h1
    rcases List.mem_cons.mp h2 with h2 | h2
    · exact .inl (h2.trans h1.1.symm)
    · exact .inr ⟨a, b, h1.2, h2⟩

/-- No predecessor of the first, unless it occurs twice. -/
theorem before_head {l : List β} {i x : β} (hn : (i :: l).Nodup) : ¬ Before (i :: l) x i := by
  rintro ⟨a, b, h1, h2⟩
  cases a with
  | nil => cases h2
  | cons c a =>
    simp only [List.cons_append, List.cons.injEq] at h1
    rw [List.nodup_cons] at hn
    exact hn.1 (by rw [h1.2]; simp)

/-- The command of a thread on its way to `pullElements`. -/
def com : PC α → Option (Item α)
  | .pushRel i | .pushPull i | .pushSet i | .pushPut i => some i
  | _ => none

@[simp] theorem com_noted (p : PC α) : com (noted p) = com p := by cases p <;> rfl

theorem com_pend {p : PC α} {x : Item α} (h : com p = some x) : pend p = some x := by
  cases p <;> simp_all [com, pend]

/-- How the line of regular commands changes. -/
theorem line_step {s s' : St α} {t : Nat} (hS : Seen s) (st : Step s t s') :
    line s' = line s ∨
    (∃ i, pend (s.pcs t) = some i ∧ line s' = line s ++ [i]) ∨
    (∃ i, com (s.pcs t) = some i ∧ s.pull = [] ∧ line s' = i :: line s) ∨
    (∃ i, line s = i :: line s' ∧ s'.hist = .took i :: s.hist ∧ s.prio = []) ∨
    line s' = [] := by
  have h1 := hS.noPull t
  have h2 := hS.noPrio t
  cases st <;> simp_all [line, pend, com, seenNoPull, seenNoPrio]

/-- How the priority channel changes. -/
theorem prio_step {s s' : St α} {t : Nat} (st : Step s t s') :
    s'.prio = s.prio ∨
    (∃ i, pend (s.pcs t) = some i ∧ s'.prio = s.prio ++ [i]) ∨
    (∃ i, s.prio = i :: s'.prio ∧ s'.hist = .took i :: s.hist) ∨
    s'.prio = [] := by
  cases st <;> simp_all [pend]

/-- A thread on its way to `pullElements` set out when nothing was in `pushElements`. -/
theorem com_step {s s' : St α} {t : Nat} (st : Step s t s') {x : Item α} (h : com (s'.pcs t) = some x) :
    com (s.pcs t) = some x ∨ (pend (s.pcs t) = some x ∧ s.push = [] ∧ s'.pull = s.pull) := by
  cases st <;> simp_all [pend, com, upd]

/-- What leaves `pullElements` is taken, dropped, or everything moved by a swap. -/
theorem pull_step {s s' : St α} {t : Nat} (hS : Seen s) (st : Step s t s') {x : Item α} (h : x ∈ s.pull) :
    x ∈ s'.pull ∨ gone s'.hist x := by
  have h1 := hS.noPull t
  cases st <;> simp_all [seenNoPull, gone] <;> grind

structure Order (s : St α) : Prop where
  line : ∀ x y, y ∈ line s → x.prio = false → precedes s.hist x y → gone s.hist x ∨ Before (line s) x y
  prio : ∀ x y, y ∈ s.prio → x.prio = true → precedes s.hist x y → gone s.hist x ∨ Before s.prio x y
  com : ∀ u x y, com (s.pcs u) = some y → x.prio = false → precedes s.hist x y →
    gone s.hist x ∨ x ∈ s.pull

theorem mem_All {s : St α} {x : Item α} :
    x ∈ All s ↔ gone s.hist x ∨ x ∈ s.pull ∨ x ∈ s.push ∨ x ∈ s.prio := by
  simp only [All, List.mem_append, mem_goneList]

theorem mem_line {s : St α} {x : Item α} : x ∈ line s ↔ x ∈ s.pull ∨ x ∈ s.push := by
  simp only [CmdQueue.line, List.mem_append, List.mem_reverse]

/-- What has been put in and returned is gone or in the line (regular) or channel (priority). -/
theorem Ids.where_ {s : St α} (h : Ids s) {x : Item α} (hr : Ev.returned x ∈ s.hist) :
    gone s.hist x ∨ (x.prio = false ∧ x ∈ line s) ∨ (x.prio = true ∧ x ∈ s.prio) := by
  rcases mem_All.mp (h.ret x hr) with h1 | h1 | h1 | h1
  · exact .inl h1
  · exact .inr (.inl ⟨h.kindA x (.inl h1), mem_line.mpr (.inl h1)⟩)
  · exact .inr (.inl ⟨h.kindA x (.inr h1), mem_line.mpr (.inr h1)⟩)
  · exact .inr (.inr ⟨h.kindP x h1, h1⟩)

theorem order_step {s s' : St α} {t : Nat} (hS : Seen s) (hI : Ids s) (h : Order s) (st : Step s t s') :
    Order s' := by
  refine ⟨?_, ?_, ?_⟩
  · intro x y hy hx hp
    have old : y ∈ line s → gone s.hist x ∨ Before (line s) x y := fun hyo =>
      h.line x y hyo hx (precedes_step hI st
        (hI.allCalled y (mem_All.mpr (by rcases mem_line.mp hyo with h | h <;> simp [h]))) hp)
    rcases line_step hS st with e | ⟨i, hi, e⟩ | ⟨i, hi, h0, e⟩ | ⟨i, e, hh, _⟩ | e
    · rw [e] at hy ⊢
      rcases old hy with h1 | h1
      · exact .inl (gone_step st h1)
      · exact .inr h1
    · rw [e] at hy ⊢
      rcases List.mem_append.mp hy with hy | hy
      · rcases old hy with h1 | h1
        · exact .inl (gone_step st h1)
        · exact .inr (before_append h1)
      · have hyi : y = i := by simpa using hy
        subst hyi
        have hp' := precedes_step hI st (hI.pendCalled _ _ hi) hp
        rcases hI.where_ (precedes_returned hp') with h1 | ⟨_, h1⟩ | ⟨h1, _⟩
        · exact .inl (gone_step st h1)
        · exact .inr (before_last h1)
        · rw [hx] at h1; cases h1
    · rw [e] at hy ⊢
      rcases List.mem_cons.mp hy with hy | hy
      · subst hy
        have hp' := precedes_step hI st (hI.pendCalled _ _ (com_pend hi)) hp
        rcases h.com t x y hi hx hp' with h1 | h1
        · exact .inl (gone_step st h1)
        · rw [h0] at h1; cases h1
      · rcases old hy with h1 | h1
        · exact .inl (gone_step st h1)
        · exact .inr (before_cons h1)
    · rcases old (by rw [e]; exact List.mem_cons_of_mem _ hy) with h1 | h1
      · exact .inl (gone_step st h1)
      · rw [e] at h1
        rcases before_uncons h1 with h1 | h1
        · rw [h1, hh]
          exact .inl (.inl (by simp))
        · exact .inr h1
    · rw [e] at hy; cases hy
  · intro x y hy hx hp
    have old : y ∈ s.prio → gone s.hist x ∨ Before s.prio x y := fun hyo =>
      h.prio x y hyo hx (precedes_step hI st (hI.allCalled y (mem_All.mpr (by simp [hyo]))) hp)
    rcases prio_step st with e | ⟨i, hi, e⟩ | ⟨i, e, hh⟩ | e
    · rw [e] at hy ⊢
      rcases old hy with h1 | h1
      · exact .inl (gone_step st h1)
      · exact .inr h1
    · rw [e] at hy ⊢
      rcases List.mem_append.mp hy with hy | hy
      · rcases old hy with h1 | h1
        · exact .inl (gone_step st h1)
        · exact .inr (before_append h1)
      · have hyi : y = i := by simpa using hy
        subst hyi
        have hp' := precedes_step hI st (hI.pendCalled _ _ hi) hp
        rcases hI.where_ (precedes_returned hp') with h1 | ⟨h1, _⟩ | ⟨_, h1⟩
        · exact .inl (gone_step st h1)
        · rw [hx] at h1; cases h1
        · exact .inr (before_last h1)
    · rcases old (by rw [e]; exact List.mem_cons_of_mem _ hy) with h1 | h1
      · exact .inl (gone_step st h1)
      · rw [e] at h1
        rcases before_uncons h1 with h1 | h1
        · rw [h1, hh]
          exact .inl (.inl (by simp))
        · exact .inr h1
    · rw [e] at hy; cases hy
  · intro u x y hu hx hp
    have key : gone s.hist x ∨ x ∈ s.pull := by
      by_cases hut : u = t
      · subst hut
        rcases com_step st hu with h1 | ⟨h1, h2, _⟩
        · exact h.com _ x y h1 hx (precedes_step hI st (hI.pendCalled _ _ (com_pend h1)) hp)
        · have hp' := precedes_step hI st (hI.pendCalled _ _ h1) hp
          rcases hI.where_ (precedes_returned hp') with h3 | ⟨_, h3⟩ | ⟨h3, _⟩
          · exact .inl h3
          · rcases mem_line.mp h3 with h3 | h3
            · exact .inr h3
            · rw [h2] at h3; cases h3
          · rw [hx] at h3; cases h3
      · have hu' : CmdQueue.com (s.pcs u) = some y := by
          rcases other_step st hut with h1 | h1 <;> rw [h1] at hu
          · exact hu
          · rwa [com_noted] at hu
        exact h.com u x y hu' hx (precedes_step hI st (hI.pendCalled _ _ (com_pend hu')) hp)
    rcases key with h1 | h1
    · exact .inl (gone_step st h1)
    · exact (pull_step hS st h1).symm

end Verif.CmdQueue
