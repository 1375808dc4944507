import Verif.Lemmas.CmdQueue
/-
Invariants of the command queue over every schedule.
-/
namespace Verif.CmdQueue

/-- States some schedule leads to. -/
def Reach (s : St α) : Prop := ∃ tr, runs init tr = some s

theorem runs_append (s : St α) (a b : List (Nat × Choice α)) :
    runs s (a ++ b) = (runs s a).bind (fun s' => runs s' b) := by
  induction a generalizing s with
  | nil => rfl
  | cons e a ih =>
    obtain ⟨t, c⟩ := e
    simp only [List.cons_append, runs]
    split
    · rfl
    · exact ih _

theorem runs_ind {P : St α → Prop} (hs : ∀ s t s', P s → Step s t s' → P s') {s0 s : St α}
    {tr : List (Nat × Choice α)} (h0 : P s0) (h : runs s0 tr = some s) : P s := by
  induction tr generalizing s0 with
  | nil => simp only [runs, Option.some.injEq] at h; exact h ▸ h0
  | cons e tr ih =>
    obtain ⟨t, c⟩ := e
    simp only [runs] at h
    split at h
    · cases h
    · rename_i s1 h1
      exact ih (hs _ _ _ h0 (step_view h1)) h

/-- Threads inside a region guarded by the push lock. -/
def holdsPush : PC α → Bool
  | .pushLook _ | .pushRel _ | .pushPutB _ | .pushRelB _ | .pushCas _ | .pushNote _ | .pushEnd _
  | .popSwap _ | .popRelA _ | .popSwapB _ | .popRelB _ | .popNoneA _ | .clearLook | .clearRel => true
  | _ => false

/-- Threads inside a region guarded by the pull lock. -/
def holdsPull : PC α → Bool
  | .pushSet _ | .pushPut _ | .pushDone _ | .pushRelA _ | .pushLockB _ | .pushPutB _ | .pushRelB _
  | .prioSetA _ | .prioPutA _ | .prioPutB _ | .prioCasB _ | .prioNote _ | .prioEnd _
  | .popLook _ | .popLockA _ | .popSwap _ | .popRelA _ | .popTake _ | .popLockB _ | .popSwapB _
  | .popRelB _ | .popEnd _ | .popNoneA _ | .popNone _ | .waitLook _ | .wakeLook _ _
  | .peekLook | .peekEnd | .clearLockB | .clearLook | .clearRel | .clearEnd => true
  | _ => false

@[simp] theorem holdsPush_noted (p : PC α) : holdsPush (noted p) = holdsPush p := by cases p <;> rfl
@[simp] theorem holdsPull_noted (p : PC α) : holdsPull (noted p) = holdsPull p := by cases p <;> rfl

/-- Each lock is held by exactly the thread inside its region. -/
structure Locks (s : St α) : Prop where
  push : ∀ u, holdsPush (s.pcs u) = true ↔ s.pushOwner = some u
  pull : ∀ u, holdsPull (s.pcs u) = true ↔ s.pullOwner = some u

theorem locks_step {s s' : St α} {t : Nat} (h : Locks s) (st : Step s t s') : Locks s' := by
  have hp := h.push
  have hq := h.pull
  have hpt := hp t
  have hqt := hq t
  cases st <;> constructor <;> intro u <;> have hpu := hp u <;> have hqu := hq u <;>
    simp only [upd] <;> by_cases hu : u = t <;> grind [holdsPush, holdsPull, holdsPush_noted, holdsPull_noted]

/-- Where a thread has seen the priority channel empty and still holds its lock. -/
def seenNoPrio : PC α → Bool
  | .popLockA _ | .popSwap _ | .popRelA _ | .popTake _ | .popLockB _ | .popSwapB _ | .popRelB _
  | .popNoneA _ | .popNone _ => true
  | _ => false

/-- Where a thread has seen `pullElements` empty and still holds its lock. -/
def seenNoPull : PC α → Bool
  | .popLockA _ | .popSwap _ | .popLockB _ | .popSwapB _ | .popNoneA _ | .popNone _ => true
  | _ => false

/-- Where a thread has seen `pullElements` filled and still holds its lock. -/
def seenPull : PC α → Bool
  | .pushLockB _ | .pushPutB _ | .popRelA _ | .popTake _ | .pushDone _ | .pushRelA _ | .pushRelB _ => true
  | _ => false

/-- Where a thread has put a command into the priority channel and still holds its lock. -/
def seenPrio : PC α → Bool
  | .prioCasB _ | .prioNote _ | .prioEnd _ => true
  | _ => false

@[simp] theorem seenPrio_noted (p : PC α) : seenPrio (noted p) = seenPrio p := by cases p <;> rfl

theorem seenPrio_pull (p : PC α) : seenPrio p = true → holdsPull p = true := by
  cases p <;> simp [seenPrio, holdsPull]

/-- Where the flag is known to be down. -/
def seenDown : PC α → Bool
  | .pushPut _ | .pushDone _ | .pushRelA _ | .pushLockB _ | .pushPutB _ | .pushRelB _
  | .prioPutA _ | .prioNote _ | .prioEnd _ | .pushCas _ | .pushNote _ | .pushEnd _ | .popRelA _ | .popTake _ => true
  | _ => false

@[simp] theorem seenNoPrio_noted (p : PC α) : seenNoPrio (noted p) = seenNoPrio p := by cases p <;> rfl
@[simp] theorem seenNoPull_noted (p : PC α) : seenNoPull (noted p) = seenNoPull p := by cases p <;> rfl
@[simp] theorem seenPull_noted (p : PC α) : seenPull (noted p) = seenPull p := by cases p <;> rfl
@[simp] theorem seenDown_noted (p : PC α) : seenDown (noted p) = seenDown p := by cases p <;> rfl

/-- Between the insertion into the priority channel and the second look at the flag. -/
def atPrioCas : PC α → Option (Item α)
  | .prioCasB i => some i
  | _ => none

@[simp] theorem atPrioCas_noted (p : PC α) : atPrioCas (noted p) = atPrioCas p := by cases p <;> rfl

/-- What a thread saw under a lock is still so; an empty flag means an empty queue. -/
structure Seen (s : St α) : Prop where
  noPrio : ∀ u, seenNoPrio (s.pcs u) = true → s.prio = []
  noPull : ∀ u, seenNoPull (s.pcs u) = true → s.pull = []
  pull : ∀ u, seenPull (s.pcs u) = true → s.pull ≠ []
  prio : ∀ u, seenPrio (s.pcs u) = true → s.prio ≠ []
  down : ∀ u, seenDown (s.pcs u) = true → s.flag = false
  empty : s.flag = true → s.push = [] ∧ s.pull = []
  emptyP : s.flag = true → s.prio ≠ [] → ∃ u i, atPrioCas (s.pcs u) = some i ∧ s.prio = [i]

theorem seenNoPrio_pull (p : PC α) : seenNoPrio p = true → holdsPull p = true := by
  cases p <;> simp [seenNoPrio, holdsPull]
theorem seenNoPull_pull (p : PC α) : seenNoPull p = true → holdsPull p = true := by
  cases p <;> simp [seenNoPull, holdsPull]
theorem seenPull_pull (p : PC α) : seenPull p = true → holdsPull p = true := by
  cases p <;> simp [seenPull, holdsPull]
theorem seenDown_holds (p : PC α) : seenDown p = true → holdsPull p = true ∨ holdsPush p = true := by
  cases p <;> simp [seenDown, holdsPull, holdsPush]
theorem atPrioCas_holds (p : PC α) (i : Item α) : atPrioCas p = some i → holdsPull p = true := by
  cases p <;> simp [atPrioCas, holdsPull]

theorem seen_noPrio {s s' : St α} {t : Nat} (hl : Locks s) (h : Seen s) (st : Step s t s') :
    ∀ u, seenNoPrio (s'.pcs u) = true → s'.prio = [] := by
  have a1 := h.noPrio
  have b2 := hl.pull t
  intro u
  have a1u := h.noPrio u
  have a1t := h.noPrio t
  have b2u := hl.pull u
  have b3 := seenNoPrio_pull (s.pcs u)
  cases st <;> simp only [upd] <;> by_cases hu : u = t <;>
    grind [holdsPull, seenNoPrio, seenNoPrio_noted]

theorem seen_noPull {s s' : St α} {t : Nat} (hl : Locks s) (h : Seen s) (st : Step s t s') :
    ∀ u, seenNoPull (s'.pcs u) = true → s'.pull = [] := by
  have b2 := hl.pull t
  intro u
  have a1u := h.noPull u
  have a1t := h.noPull t
  have b2u := hl.pull u
  have b3 := seenNoPull_pull (s.pcs u)
  cases st <;> simp only [upd] <;> by_cases hu : u = t <;>
    grind [holdsPull, seenNoPull, seenNoPull_noted]

theorem seen_pull {s s' : St α} {t : Nat} (hl : Locks s) (h : Seen s) (st : Step s t s') :
    ∀ u, seenPull (s'.pcs u) = true → s'.pull ≠ [] := by
  have b2 := hl.pull t
  intro u
  have a1u := h.pull u
  have a1t := h.pull t
  have b2u := hl.pull u
  have b3 := seenPull_pull (s.pcs u)
  cases st <;> simp only [upd] <;> by_cases hu : u = t <;>
    grind [holdsPull, seenPull, seenPull_noted, List.reverse_eq_nil_iff, List.append_eq_nil_iff]

theorem seen_prio {s s' : St α} {t : Nat} (hl : Locks s) (h : Seen s) (st : Step s t s') :
    ∀ u, seenPrio (s'.pcs u) = true → s'.prio ≠ [] := by
  have b2 := hl.pull t
  intro u
  have a1u := h.prio u
  have a1t := h.prio t
  have b2u := hl.pull u
  have b3 := seenPrio_pull (s.pcs u)
  cases st <;> simp only [upd] <;> by_cases hu : u = t <;>
    grind [holdsPull, seenPrio, seenPrio_noted, List.append_eq_nil_iff]

theorem seen_down {s s' : St α} {t : Nat} (hl : Locks s) (h : Seen s) (st : Step s t s') :
    ∀ u, seenDown (s'.pcs u) = true → s'.flag = false := by
  have b2 := hl.pull t
  have c2 := hl.push t
  have e1 := h.empty
  intro u
  have a1u := h.down u
  have a1t := h.down t
  have b2u := hl.pull u
  have c2u := hl.push u
  have b3 := seenDown_holds (s.pcs u)
  cases st <;> simp only [upd] <;> by_cases hu : u = t <;>
    grind [holdsPull, holdsPush, seenDown, seenDown_noted]

theorem seen_empty {s s' : St α} {t : Nat} (h : Seen s) (st : Step s t s') :
    s'.flag = true → s'.push = [] ∧ s'.pull = [] := by
  have e1 := h.empty
  have a1t := h.down t
  have a2t := h.noPull t
  cases st <;> grind [seenDown, seenNoPull, List.append_eq_nil_iff]

theorem seen_emptyP {s s' : St α} {t : Nat} (hl : Locks s) (h : Seen s) (st : Step s t s') :
    s'.flag = true → s'.prio ≠ [] → ∃ u i, atPrioCas (s'.pcs u) = some i ∧ s'.prio = [i] := by
  have e1 := h.emptyP
  have a1t := h.down t
  have a2t := h.noPrio t
  have b2 := hl.pull
  have b2t := hl.pull t
  intro h1 h2
  by_cases hx : s.flag = true ∧ s.prio ≠ []
  · obtain ⟨v, i, hv, hvi⟩ := e1 hx.1 hx.2
    have b3 := atPrioCas_holds (s.pcs v) i
    have b4 := hl.pull v
    refine ⟨v, i, ?_⟩
    cases st <;> simp only [upd] <;> by_cases hu : v = t <;>
      grind [holdsPull, atPrioCas, atPrioCas_noted, seenDown, seenNoPrio]
  · cases st
    case prioPutB i hp =>
      refine ⟨t, i, by simp [upd, atPrioCas], ?_⟩
      have hf : s.flag = true := h1
      have : s.prio = [] := by
        refine Classical.byContradiction fun hn => hx ⟨hf, hn⟩
      simp [this]
    all_goals
      exfalso
      grind [seenDown, seenNoPrio]

theorem seen_step {s s' : St α} {t : Nat} (hl : Locks s) (h : Seen s) (st : Step s t s') : Seen s' :=
  ⟨seen_noPrio hl h st, seen_noPull hl h st, seen_pull hl h st, seen_prio hl h st, seen_down hl h st, seen_empty h st,
    seen_emptyP hl h st⟩

end Verif.CmdQueue
