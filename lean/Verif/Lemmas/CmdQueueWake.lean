import Verif.Lemmas.CmdQueueEvents
/-
Command queue: no lost wake-up with one taker, no deadlock, bounded calls.
-/
namespace Verif.CmdQueue

/-- Threads inside an operation that takes. -/
def inPop : PC α → Bool
  | .popLock _ | .popLook _ | .popLockA _ | .popSwap _ | .popRelA _ | .popTake _ | .popLockB _
  | .popSwapB _ | .popRelB _ | .popEnd _ | .popNoneA _ | .popNone _ | .waitLock _ | .waitLook _
  | .waiting _ _ | .wakeLock _ _ | .wakeLook _ _ => true
  | _ => false

@[simp] theorem inPop_noted (p : PC α) : inPop (noted p) = inPop p := by cases p <;> rfl

theorem inPop_step {s s' : St α} {t : Nat} (st : Step s t s') (h : inPop (s'.pcs t) = true) :
    inPop (s.pcs t) = true ∨ (s.pcs t = .idle) := by
  cases st <;> simp_all [inPop, upd]

theorem inPop_call {s s' : St α} {t : Nat} {c : Choice α} (h : step s t c = some s')
    (hp : inPop (s'.pcs t) = true) :
    inPop (s.pcs t) = true ∨ ∃ o, c = .call o ∧ isPop o = true := by
  rcases inPop_step (step_view h) hp with h1 | h1
  · exact .inl h1
  · cases c with
    | call o =>
      refine .inr ⟨o, rfl, ?_⟩
      simp only [step, h1] at h
      simp only [if_true, Option.some.injEq] at h
      subst h
      cases o <;> simp_all [call, inPop, isPop, St.goto, upd]
    | wake b => simp [step, h1] at h
    | go => simp [step, h1, stepPush, stepPrio, stepTry, stepWait, stepRest] at h

/-- Only `c` takes. -/
def Only (c : Nat) (s : St α) : Prop := ∀ u, u ≠ c → inPop (s.pcs u) = false

theorem only_step {s s' : St α} {t c : Nat} {ch : Choice α} (h : Only c s) (hs : step s t ch = some s')
    (ht : ∀ o, ch = .call o → isPop o = true → t = c) : Only c s' := by
  intro u hu
  cases hp : inPop (s'.pcs u) with
  | false => rfl
  | true =>
    by_cases hut : u = t
    · subst hut
      rcases inPop_call hs hp with h1 | ⟨o, h1, h2⟩
      · rw [h u hu] at h1; cases h1
      · exact absurd (ht o h1 h2) hu
    · rcases other_step (step_view hs) hut with h1 | h1 <;> rw [h1] at hp
      · rw [h u hu] at hp; cases hp
      · rw [inPop_noted, h u hu] at hp; cases hp

/-- Threads that have taken the flag down and will notify. -/
def notifier : PC α → Bool
  | .pushRel _ | .pushPull _ | .pushSet _ | .pushPut _ | .pushDone _
  | .prioLockA _ | .prioSetA _ | .prioPutA _ | .prioNote _ => true
  | _ => false

@[simp] theorem notifier_noted (p : PC α) : notifier (noted p) = notifier p := by cases p <;> rfl

/-- The taker has found nothing and has not looked again. -/
def preWait : PC α → Bool
  | .popNoneA _ | .popNone _ | .waitLock _ | .waitLook _ => true
  | _ => false

/-- Asleep, not notified. -/
def sleeps : PC α → Bool
  | .waiting _ false => true
  | _ => false

/-- Between the insertion and the notification. -/
def atDone : PC α → Bool
  | .pushDone _ => true
  | _ => false

@[simp] theorem atDone_noted (p : PC α) : atDone (noted p) = atDone p := by cases p <;> rfl

@[simp] theorem preWait_noted (p : PC α) : preWait (noted p) = preWait p := by cases p <;> rfl

structure Wake (c : Nat) (s : St α) : Prop where
  pre : preWait (s.pcs c) = true →
    (s.flag = true ∧ s.push = []) ∨ (∃ u, notifier (s.pcs u) = true) ∨ s.pull ≠ [] ∨ s.prio ≠ []
  sleep : sleeps (s.pcs c) = true → (s.flag = true ∧ s.push = []) ∨ (∃ u, notifier (s.pcs u) = true)
  pull : sleeps (s.pcs c) = true → s.pull = [] ∨ ∃ u, atDone (s.pcs u) = true

theorem preWait_notNotifier {p : PC α} (h : preWait p = true) : notifier p = false := by
  cases p <;> simp_all [preWait, notifier]

theorem sleeps_notNotifier {p : PC α} (h : sleeps p = true) : notifier p = false := by
  cases p <;> simp_all [sleeps, notifier]

theorem other_notifier {s s' : St α} {t u : Nat} (st : Step s t s') (hu : u ≠ t)
    (h : notifier (s.pcs u) = true) : notifier (s'.pcs u) = true := by
  rcases other_step st hu with h1 | h1 <;> rw [h1]
  · exact h
  · rw [notifier_noted]; exact h

/-- A step of another thread than the taker, seen from a taker on its way to sleep. -/
theorem pre_other {s s' : St α} {t : Nat} (hS : Seen s) (st : Step s t s') (hn : inPop (s.pcs t) = false)
    (hi : s.pcs t = .idle → inPop (s'.pcs t) = false)
    (h : (s.flag = true ∧ s.push = []) ∨ notifier (s.pcs t) = true ∨ s.pull ≠ [] ∨ s.prio ≠ []) :
    (s'.flag = true ∧ s'.push = []) ∨ notifier (s'.pcs t) = true ∨ s'.pull ≠ [] ∨ s'.prio ≠ [] := by
  have h1 := hS.pull t
  have h2 := hS.prio t
  have h3 := hS.down t
  cases st <;> simp_all [inPop, notifier, upd, seenPull, seenPrio, seenDown]

theorem pre_self {s s' : St α} {t : Nat} (st : Step s t s') (h : preWait (s'.pcs t) = true) :
    (preWait (s.pcs t) = true ∧ s'.flag = s.flag ∧ s'.push = s.push ∧ s'.pull = s.pull ∧ s'.prio = s.prio) ∨
    (s'.flag = true ∧ s'.push = []) := by
  cases st <;> simp_all [preWait, upd]

theorem sleep_self {s s' : St α} {t : Nat} (st : Step s t s') (h : sleeps (s'.pcs t) = true) :
    preWait (s.pcs t) = true ∧ s'.flag = s.flag ∧ s'.push = s.push ∧ s'.pull = s.pull ∧ s.pull = [] ∧
      s.prio = [] := by
  cases st <;> simp_all [preWait, sleeps, upd]

/-- A step of another thread either notifies everybody or keeps the promise to do so. -/
theorem sleep_other {s s' : St α} {t c : Nat} (hS : Seen s) (st : Step s t s') (hc : c ≠ t)
    (hn : inPop (s.pcs t) = false) (hi : s.pcs t = .idle → inPop (s'.pcs t) = false)
    (hp : notifier (s.pcs t) = true → s.pull = [] ∨ atDone (s.pcs t) = true)
    (hsl : sleeps (s'.pcs c) = true)
    (h : (s.flag = true ∧ s.push = []) ∨ notifier (s.pcs t) = true) :
    (s'.flag = true ∧ s'.push = []) ∨ notifier (s'.pcs t) = true := by
  have h3 := hS.down t
  cases st <;> simp_all [inPop, notifier, upd, seenDown, atDone] <;> revert hsl <;>
    cases s.pcs c <;> simp [noted, sleeps]

theorem sleep_pull {s s' : St α} {t c : Nat} (st : Step s t s') (hc : c ≠ t)
    (hn : inPop (s.pcs t) = false) (hi : s.pcs t = .idle → inPop (s'.pcs t) = false)
    (hsl : sleeps (s'.pcs c) = true) (h : s.pull = [] ∨ atDone (s.pcs t) = true) :
    s'.pull = [] ∨ atDone (s'.pcs t) = true := by
  cases st <;> simp_all [inPop, upd, atDone] <;> revert hsl <;>
    cases s.pcs c <;> simp [noted, sleeps]

theorem sleeps_back {s s' : St α} {t c : Nat} (st : Step s t s') (hc : c ≠ t)
    (h : sleeps (s'.pcs c) = true) : sleeps (s.pcs c) = true := by
  rcases other_step st hc with h1 | h1 <;> rw [h1] at h
  · exact h
  · revert h; cases s.pcs c <;> simp [noted, sleeps]

theorem preWait_back {s s' : St α} {t c : Nat} (st : Step s t s') (hc : c ≠ t)
    (h : preWait (s'.pcs c) = true) : preWait (s.pcs c) = true := by
  rcases other_step st hc with h1 | h1 <;> rw [h1] at h
  · exact h
  · rwa [preWait_noted] at h

theorem atDone_holds {p : PC α} (h : atDone p = true) : holdsPull p = true := by
  cases p <;> simp_all [atDone, holdsPull]

theorem wake_step {s s' : St α} {t c : Nat} (hl : Locks s) (hS : Seen s) (h : Wake c s) (ho : Only c s)
    (ho' : Only c s') (st : Step s t s') : Wake c s' := by
  refine ⟨?_, ?_, ?_⟩
  · intro hp
    by_cases hct : c = t
    · subst hct
      rcases pre_self st hp with ⟨h1, e1, e2, e3, e4⟩ | h1
      · rcases h.pre h1 with h2 | ⟨u, h2⟩ | h2
        · exact .inl (by rw [e1, e2]; exact h2)
        · have hu : u ≠ c := by
            intro hu; subst hu
            rw [preWait_notNotifier h1] at h2; cases h2
          exact .inr (.inl ⟨u, other_notifier st hu h2⟩)
        · exact .inr (.inr (by rw [e3, e4]; exact h2))
      · exact .inl h1
    · have hn := ho t (Ne.symm hct)
      have hi : s.pcs t = .idle → inPop (s'.pcs t) = false := fun _ => ho' t (Ne.symm hct)
      have key : ∀ hyp : (s.flag = true ∧ s.push = []) ∨ notifier (s.pcs t) = true ∨ s.pull ≠ [] ∨ s.prio ≠ [],
          (s'.flag = true ∧ s'.push = []) ∨ (∃ u, notifier (s'.pcs u) = true) ∨ s'.pull ≠ [] ∨ s'.prio ≠ [] := by
        intro hyp
        rcases pre_other hS st hn hi hyp with h1 | h1 | h1
        · exact .inl h1
        · exact .inr (.inl ⟨t, h1⟩)
        · exact .inr (.inr h1)
      rcases h.pre (preWait_back st hct hp) with h2 | ⟨u, h2⟩ | h2
      · exact key (.inl h2)
      · by_cases hu : u = t
        · subst hu; exact key (.inr (.inl h2))
        · exact .inr (.inl ⟨u, other_notifier st hu h2⟩)
      · exact key (.inr (.inr h2))
  · intro hp
    by_cases hct : c = t
    · subst hct
      obtain ⟨h1, e1, e2, e3, e4, e5⟩ := sleep_self st hp
      rcases h.pre h1 with h2 | ⟨u, h2⟩ | h2 | h2
      · exact .inl (by rw [e1, e2]; exact h2)
      · have hu : u ≠ c := by
          intro hu; subst hu
          rw [preWait_notNotifier h1] at h2; cases h2
        exact .inr ⟨u, other_notifier st hu h2⟩
      · exact absurd e4 h2
      · exact absurd e5 h2
    · have hn := ho t (Ne.symm hct)
      have hi : s.pcs t = .idle → inPop (s'.pcs t) = false := fun _ => ho' t (Ne.symm hct)
      have hsl := sleeps_back st hct hp
      have hpu : notifier (s.pcs t) = true → s.pull = [] ∨ atDone (s.pcs t) = true ∨ holdsPull (s.pcs t) = false := by
        intro _
        rcases h.pull hsl with h1 | ⟨u, h1⟩
        · exact .inl h1
        · by_cases hu : u = t
          · subst hu; exact .inr (.inl h1)
          · refine .inr (.inr ?_)
            cases hh : holdsPull (s.pcs t) with
            | false => rfl
            | true =>
              have a1 := (hl.pull t).mp hh
              have a2 := (hl.pull u).mp (atDone_holds h1)
              rw [a1] at a2
              exact absurd (Option.some.inj a2).symm hu
      have key : ∀ hyp : (s.flag = true ∧ s.push = []) ∨ notifier (s.pcs t) = true,
          (s'.flag = true ∧ s'.push = []) ∨ (∃ u, notifier (s'.pcs u) = true) := by
        intro hyp
        by_cases hb : holdsPull (s.pcs t) = false
        · have h3 := hS.down t
          have : (s'.flag = true ∧ s'.push = []) ∨ notifier (s'.pcs t) = true := by
            cases st <;> simp_all [inPop, notifier, upd, seenDown, holdsPull]
          rcases this with h1 | h1
          · exact .inl h1
          · exact .inr ⟨t, h1⟩
        · have hpu' : notifier (s.pcs t) = true → s.pull = [] ∨ atDone (s.pcs t) = true := by
            intro hq
            rcases hpu hq with h1 | h1 | h1
            · exact .inl h1
            · exact .inr h1
            · exact absurd h1 hb
          rcases sleep_other hS st hct hn hi hpu' hp hyp with h1 | h1
          · exact .inl h1
          · exact .inr ⟨t, h1⟩
      rcases h.sleep hsl with h2 | ⟨u, h2⟩
      · exact key (.inl h2)
      · by_cases hu : u = t
        · subst hu; exact key (.inr h2)
        · exact .inr ⟨u, other_notifier st hu h2⟩
  · intro hp
    by_cases hct : c = t
    · subst hct
      obtain ⟨h1, e1, e2, e3, e4, e5⟩ := sleep_self st hp
      exact .inl (by rw [e3, e4])
    · have hn := ho t (Ne.symm hct)
      have hi : s.pcs t = .idle → inPop (s'.pcs t) = false := fun _ => ho' t (Ne.symm hct)
      have key : ∀ hyp : s.pull = [] ∨ atDone (s.pcs t) = true,
          s'.pull = [] ∨ ∃ u, atDone (s'.pcs u) = true := by
        intro hyp
        rcases sleep_pull st hct hn hi hp hyp with h1 | h1
        · exact .inl h1
        · exact .inr ⟨t, h1⟩
      rcases h.pull (sleeps_back st hct hp) with h2 | ⟨u, h2⟩
      · exact key (.inl h2)
      · by_cases hu : u = t
        · subst hu; exact key (.inr h2)
        · refine .inr ⟨u, ?_⟩
          rcases other_step st hu with h1 | h1 <;> rw [h1]
          · exact h2
          · rw [atDone_noted]; exact h2

theorem runs_wake {c : Nat} {s0 s : St α} {tr : List (Nat × Choice α)} (hi : Inv s0) (hw : Wake c s0)
    (ho : Only c s0) (h : runs s0 tr = some s) (ht : OneTaker c tr) : Wake c s ∧ Only c s := by
  induction tr generalizing s0 with
  | nil => simp only [runs, Option.some.injEq] at h; exact h ▸ ⟨hw, ho⟩
  | cons e tr ih =>
    obtain ⟨t, ch⟩ := e
    simp only [runs] at h
    split at h
    · cases h
    · rename_i s1 h1
      have ho1 := only_step ho h1 (fun o hc hp => ht t o (by rw [hc]; simp) hp)
      exact ih (inv_step hi (step_view h1)) (wake_step hi.locks hi.seen hw ho ho1 (step_view h1)) ho1 h
        (fun t o hm => ht t o (List.mem_cons_of_mem _ hm))

theorem wake_init (c : Nat) : Wake c (init : St α) ∧ Only c (init : St α) := by
  refine ⟨⟨?_, ?_, ?_⟩, ?_⟩ <;> simp [init, preWait, sleeps, Only, inPop]

/-- The push lock's holder can always move. -/
theorem pushHolder_moves {s : St α} {t : Nat} (h : holdsPush (s.pcs t) = true) :
    ∃ s', step s t .go = some s' := by
  simp only [step]
  cases hp : s.pcs t <;> simp_all [holdsPush, stepPush, stepPrio, stepTry, stepWait, stepRest] <;>
    (repeat' split) <;> grind

/-- A thread in an operation moves, unless it sleeps or a lock it wants is held. -/
theorem moves {s : St α} {t : Nat} (hS : Seen s) (h1 : s.pcs t ≠ .idle) (h2 : ∀ m b, s.pcs t ≠ .waiting m b) :
    (∃ s', step s t .go = some s') ∨ (∃ u, s.pushOwner = some u) ∨
      (∃ u, s.pullOwner = some u ∧ holdsPull (s.pcs t) = false) := by
  have hp := hS.pull t
  cases ho : s.pushOwner with
  | some u => exact .inr (.inl ⟨u, rfl⟩)
  | none =>
    by_cases hq : (∃ u, s.pullOwner = some u ∧ holdsPull (s.pcs t) = false)
    · exact .inr (.inr hq)
    · refine .inl ?_
      simp only [step]
      have hq' : holdsPull (s.pcs t) = false → s.pullOwner = none := by
        intro hb
        cases hx : s.pullOwner with
        | none => rfl
        | some u => exact absurd ⟨u, hx, hb⟩ hq
      cases hpc : s.pcs t
      case popTake m =>
        have hne := hp (by rw [hpc]; rfl)
        have : ∃ i, s.pull.getLast? = some i := ⟨_, List.getLast?_eq_some_getLast hne⟩
        obtain ⟨i, hi⟩ := this
        simp only [stepPush, stepPrio, stepTry, takeBack, hi, St.log]
        by_cases hd : s.pull.dropLast = []
        · rw [if_pos hd]; exact ⟨_, rfl⟩
        · rw [if_neg hd]; exact ⟨_, rfl⟩
      all_goals
        simp_all [holdsPull, stepPush, stepPrio, stepTry, stepWait, stepRest, St.lockPush, St.lockPull]
      all_goals (repeat' split)
      all_goals grind

/-- No deadlock. -/
theorem someone_moves {s : St α} (h : Inv s) {t : Nat} (h1 : s.pcs t ≠ .idle)
    (h2 : ∀ m b, s.pcs t ≠ .waiting m b) : ∃ u s', step s u .go = some s' := by
  rcases moves h.seen h1 h2 with h3 | ⟨u, h3⟩ | ⟨u, h3, _⟩
  · exact ⟨t, h3⟩
  · exact ⟨u, pushHolder_moves ((h.locks.push u).mpr h3)⟩
  · have hu := (h.locks.pull u).mpr h3
    have hu1 : s.pcs u ≠ .idle := by intro hx; rw [hx] at hu; cases hu
    have hu2 : ∀ m b, s.pcs u ≠ .waiting m b := by intro m b hx; rw [hx] at hu; cases hu
    rcases moves h.seen hu1 hu2 with h4 | ⟨v, h4⟩ | ⟨v, _, h4⟩
    · exact ⟨u, h4⟩
    · exact ⟨v, pushHolder_moves ((h.locks.push v).mpr h4)⟩
    · rw [hu] at h4; cases h4

/-- How many more steps of its own a call makes at most (taking operations: up to the next sleep). -/
def left : PC α → Nat
  | .idle => 0
  | .pushLock _ => 10 | .pushLook _ => 9 | .pushRel _ => 8 | .pushPull _ => 7 | .pushSet _ => 6
  | .pushPut _ => 5 | .pushLockB _ => 4 | .pushPutB _ => 3 | .pushRelB _ => 2
  | .pushDone _ => 2 | .pushRelA _ => 1 | .pushCas _ => 3 | .pushNote _ => 2 | .pushEnd _ => 1
  | .prioCas _ => 6 | .prioLockA _ => 5 | .prioSetA _ => 4 | .prioPutA _ => 3
  | .prioLockB _ => 5 | .prioPutB _ => 4 | .prioCasB _ => 3 | .prioNote _ => 2 | .prioEnd _ => 1
  | .wakeLock _ _ => 15 | .wakeLook _ _ => 14
  | .popLock _ => 13 | .popLook _ => 12 | .popLockA _ => 11 | .popSwap _ => 10 | .popRelA _ => 9
  | .popTake _ => 8 | .popLockB _ => 7 | .popSwapB _ => 6 | .popRelB _ => 5
  | .popNoneA _ => 6 | .popNone _ => 5 | .waitLock _ => 4 | .waitLook _ => 3 | .popEnd _ => 1
  | .waiting _ _ => 0
  | .peekLock => 3 | .peekLook => 2 | .peekEnd => 1
  | .clearLock => 5 | .clearLockB => 4 | .clearLook => 3 | .clearRel => 2 | .clearEnd => 1
  | .emptyLook => 1

theorem left_go {s s' : St α} {t : Nat} (h : step s t .go = some s') : left (s'.pcs t) < left (s.pcs t) := by
  have hpc : s.pcs t ≠ .idle := by
    intro hx; simp [step, hx, stepPush, stepPrio, stepTry, stepWait, stepRest] at h
  have hw : ∀ m b, s.pcs t ≠ .waiting m b := by
    intro m b hx; simp [step, hx, stepPush, stepPrio, stepTry, stepWait, stepRest] at h
  have st := step_view h
  cases st <;> simp_all [left, upd]

end Verif.CmdQueue
