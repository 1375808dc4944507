import Verif.Model.CmdQueue
/-
Elimination of `step`: one constructor per kind of step, with the resulting state written out.
-/
namespace Verif.CmdQueue

/-- The steps of a thread, one by one (a view of `step`, see `step_view`). -/
inductive Step (s : St α) (t : Nat) : St α → Prop
  | callPush (v : α) : (s.pcs t = .idle) → Step s t
      { s with next := s.next + 1, hist := .called ⟨s.next, false, v⟩ :: s.hist, pcs := upd s.pcs t (.pushLock ⟨s.next, false, v⟩) }
  | callPrio (v : α) : (s.pcs t = .idle) → Step s t
      { s with next := s.next + 1, hist := .called ⟨s.next, true, v⟩ :: s.hist, pcs := upd s.pcs t (.prioCas ⟨s.next, true, v⟩) }
  | callPop (m : Mode) : (s.pcs t = .idle) → (m ≠ .last) → Step s t
      { s with hist := .popStart t :: s.hist, pcs := upd s.pcs t (.popLock m) }
  | callPeek  : (s.pcs t = .idle) → Step s t
      { s with pcs := upd s.pcs t (.peekLock) }
  | callEmpty  : (s.pcs t = .idle) → Step s t
      { s with pcs := upd s.pcs t (.emptyLook) }
  | callClear  : (s.pcs t = .idle) → Step s t
      { s with pcs := upd s.pcs t (.clearLock) }
  | wake (m : Mode) (b late : Bool) : (s.pcs t = .waiting m b) → (¬ (late = true ∧ m ≠ .timed)) → Step s t
      { s with pcs := upd s.pcs t (.wakeLock m late) }
  | pushLock (i : Item α) : (s.pcs t = .pushLock i) → (s.pushOwner = none) → Step s t
      { s with pushOwner := some t, pcs := upd s.pcs t (.pushLook i) }
  | pushFast (i : Item α) : (s.pcs t = .pushLook i) → (s.push ≠ []) → Step s t
      { s with push := s.push ++ [i], pcs := upd s.pcs t (.pushEnd i) }
  | pushWin (i : Item α) : (s.pcs t = .pushLook i) → (s.push = []) → (s.flag = true) → Step s t
      { s with flag := false, pcs := upd s.pcs t (.pushRel i) }
  | pushSlow (i : Item α) : (s.pcs t = .pushLook i) → (s.push = []) → (s.flag = false) → Step s t
      { s with push := s.push ++ [i], pcs := upd s.pcs t (.pushCas i) }
  | pushRel (i : Item α) : (s.pcs t = .pushRel i) → Step s t
      { s with pushOwner := none, pcs := upd s.pcs t (.pushPull i) }
  | pushPull (i : Item α) : (s.pcs t = .pushPull i) → (s.pullOwner = none) → Step s t
      { s with pullOwner := some t, pcs := upd s.pcs t (.pushSet i) }
  | pushSet (i : Item α) : (s.pcs t = .pushSet i) → Step s t
      { s with flag := false, pcs := upd s.pcs t (.pushPut i) }
  | pushPut (i : Item α) : (s.pcs t = .pushPut i) → (s.pull = []) → Step s t
      { s with pull := s.pull ++ [i], pcs := upd s.pcs t (.pushDone i) }
  | pushNo (i : Item α) : (s.pcs t = .pushPut i) → (s.pull ≠ []) → Step s t
      { s with pcs := upd s.pcs t (.pushLockB i) }
  | pushDone (i : Item α) : (s.pcs t = .pushDone i) → Step s t
      { s with pcs := upd (fun u => noted (s.pcs u)) t (.pushRelA i) }
  | pushRelA (i : Item α) : (s.pcs t = .pushRelA i) → Step s t
      { s with pullOwner := none, hist := .returned i :: s.hist, pcs := upd s.pcs t (.idle) }
  | pushLockB (i : Item α) : (s.pcs t = .pushLockB i) → (s.pushOwner = none) → Step s t
      { s with pushOwner := some t, pcs := upd s.pcs t (.pushPutB i) }
  | pushPutB (i : Item α) : (s.pcs t = .pushPutB i) → Step s t
      { s with push := s.push ++ [i], pcs := upd s.pcs t (.pushRelB i) }
  | pushRelB (i : Item α) : (s.pcs t = .pushRelB i) → Step s t
      { s with pullOwner := none, pcs := upd s.pcs t (.pushEnd i) }
  | pushCasT (i : Item α) : (s.pcs t = .pushCas i) → (s.flag = true) → Step s t
      { s with flag := false, pcs := upd s.pcs t (.pushNote i) }
  | pushCasF (i : Item α) : (s.pcs t = .pushCas i) → (s.flag = false) → Step s t
      { s with pcs := upd s.pcs t (.pushEnd i) }
  | pushNote (i : Item α) : (s.pcs t = .pushNote i) → Step s t
      { s with pcs := upd (fun u => noted (s.pcs u)) t (.pushEnd i) }
  | pushEnd (i : Item α) : (s.pcs t = .pushEnd i) → Step s t
      { s with pushOwner := none, hist := .returned i :: s.hist, pcs := upd s.pcs t (.idle) }
  | prioCasT (i : Item α) : (s.pcs t = .prioCas i) → (s.flag = true) → Step s t
      { s with flag := false, pcs := upd s.pcs t (.prioLockA i) }
  | prioCasF (i : Item α) : (s.pcs t = .prioCas i) → (s.flag = false) → Step s t
      { s with pcs := upd s.pcs t (.prioLockB i) }
  | prioLockA (i : Item α) : (s.pcs t = .prioLockA i) → (s.pullOwner = none) → Step s t
      { s with pullOwner := some t, pcs := upd s.pcs t (.prioSetA i) }
  | prioSetA (i : Item α) : (s.pcs t = .prioSetA i) → Step s t
      { s with flag := false, pcs := upd s.pcs t (.prioPutA i) }
  | prioPutA (i : Item α) : (s.pcs t = .prioPutA i) → Step s t
      { s with prio := s.prio ++ [i], pcs := upd s.pcs t (.prioNote i) }
  | prioLockB (i : Item α) : (s.pcs t = .prioLockB i) → (s.pullOwner = none) → Step s t
      { s with pullOwner := some t, pcs := upd s.pcs t (.prioPutB i) }
  | prioPutB (i : Item α) : (s.pcs t = .prioPutB i) → Step s t
      { s with prio := s.prio ++ [i], pcs := upd s.pcs t (.prioCasB i) }
  | prioCasBT (i : Item α) : (s.pcs t = .prioCasB i) → (s.flag = true) → Step s t
      { s with flag := false, pcs := upd s.pcs t (.prioNote i) }
  | prioCasBF (i : Item α) : (s.pcs t = .prioCasB i) → (s.flag = false) → Step s t
      { s with pcs := upd s.pcs t (.prioEnd i) }
  | prioNote (i : Item α) : (s.pcs t = .prioNote i) → Step s t
      { s with pcs := upd (fun u => noted (s.pcs u)) t (.prioEnd i) }
  | prioEnd (i : Item α) : (s.pcs t = .prioEnd i) → Step s t
      { s with pullOwner := none, hist := .returned i :: s.hist, pcs := upd s.pcs t (.idle) }
  | popLock (m : Mode) : (s.pcs t = .popLock m) → (s.pullOwner = none) → Step s t
      { s with pullOwner := some t, pcs := upd s.pcs t (.popLook m) }
  | popPrio (m : Mode) (i : Item α) (l : List (Item α)) : (s.pcs t = .popLook m) → (s.prio = i :: l) → Step s t
      { s with prio := l, hist := .took i :: s.hist, pcs := upd s.pcs t (.popEnd m) }
  | popEmpty (m : Mode) : (s.pcs t = .popLook m) → (s.prio = []) → (s.pull = []) → Step s t
      { s with pcs := upd s.pcs t (.popLockA m) }
  | popOne (m : Mode) (i : Item α) (l : List (Item α)) : (s.pcs t = .popLook m) → (s.prio = []) → (s.pull = l ++ [i]) → (l = []) → Step s t
      { s with pull := l, hist := .took i :: s.hist, pcs := upd s.pcs t (.popLockB m) }
  | popMore (m : Mode) (i : Item α) (l : List (Item α)) : (s.pcs t = .popLook m) → (s.prio = []) → (s.pull = l ++ [i]) → (l ≠ []) → Step s t
      { s with pull := l, hist := .took i :: s.hist, pcs := upd s.pcs t (.popEnd m) }
  | popLockA (m : Mode) : (s.pcs t = .popLockA m) → (s.pushOwner = none) → Step s t
      { s with pushOwner := some t, pcs := upd s.pcs t (.popSwap m) }
  | popSwap (m : Mode) : (s.pcs t = .popSwap m) → (s.push ≠ []) → Step s t
      { s with push := s.pull, pull := s.push.reverse, pcs := upd s.pcs t (.popRelA m) }
  | popNil (m : Mode) : (s.pcs t = .popSwap m) → (s.push = []) → Step s t
      { s with flag := true, pcs := upd s.pcs t (.popNoneA m) }
  | popRelA (m : Mode) : (s.pcs t = .popRelA m) → Step s t
      { s with pushOwner := none, pcs := upd s.pcs t (.popTake m) }
  | takeOne (m : Mode) (i : Item α) (l : List (Item α)) : (s.pcs t = .popTake m) → (s.pull = l ++ [i]) → (l = []) → Step s t
      { s with pull := l, hist := .took i :: s.hist, pcs := upd s.pcs t (.popLockB m) }
  | takeMore (m : Mode) (i : Item α) (l : List (Item α)) : (s.pcs t = .popTake m) → (s.pull = l ++ [i]) → (l ≠ []) → Step s t
      { s with pull := l, hist := .took i :: s.hist, pcs := upd s.pcs t (.popEnd m) }
  | popLockB (m : Mode) : (s.pcs t = .popLockB m) → (s.pushOwner = none) → Step s t
      { s with pushOwner := some t, pcs := upd s.pcs t (.popSwapB m) }
  | popSwapB (m : Mode) : (s.pcs t = .popSwapB m) → (s.push ≠ []) → Step s t
      { s with push := s.pull, pull := s.push.reverse, pcs := upd s.pcs t (.popRelB m) }
  | popNilB (m : Mode) : (s.pcs t = .popSwapB m) → (s.push = []) → Step s t
      { s with flag := true, pcs := upd s.pcs t (.popRelB m) }
  | popRelB (m : Mode) : (s.pcs t = .popRelB m) → Step s t
      { s with pushOwner := none, pcs := upd s.pcs t (.popEnd m) }
  | popEnd (m : Mode) : (s.pcs t = .popEnd m) → Step s t
      { s with pullOwner := none, pcs := upd s.pcs t (.idle) }
  | popNoneA (m : Mode) : (s.pcs t = .popNoneA m) → Step s t
      { s with pushOwner := none, pcs := upd s.pcs t (.popNone m) }
  | popNone (m : Mode) : (s.pcs t = .popNone m) → (m = .once ∨ m = .last) → Step s t
      { s with pullOwner := none, hist := .popNone t :: s.hist, pcs := upd s.pcs t (.idle) }
  | popWait (m : Mode) : (s.pcs t = .popNone m) → (m = .block ∨ m = .timed) → Step s t
      { s with pullOwner := none, hist := .popNone t :: s.hist, pcs := upd s.pcs t (.waitLock m) }
  | waitLock (m : Mode) : (s.pcs t = .waitLock m) → (s.pullOwner = none) → Step s t
      { s with pullOwner := some t, pcs := upd s.pcs t (.waitLook m) }
  | waitPrio (m : Mode) (i : Item α) (l : List (Item α)) : (s.pcs t = .waitLook m) → (s.prio = i :: l) → Step s t
      { s with prio := l, hist := .took i :: s.hist, pcs := upd s.pcs t (.popEnd m) }
  | waitTake (m : Mode) (i : Item α) (l : List (Item α)) : (s.pcs t = .waitLook m) → (s.prio = []) → (s.pull = l ++ [i]) → Step s t
      { s with pull := l, hist := .took i :: s.hist, pcs := upd s.pcs t (.popEnd m) }
  | wait (m : Mode) : (s.pcs t = .waitLook m) → (s.prio = []) → (s.pull = []) → Step s t
      { s with pullOwner := none, pcs := upd s.pcs t (.waiting m false) }
  | wakeLock (m : Mode) (late : Bool) : (s.pcs t = .wakeLock m late) → (s.pullOwner = none) → Step s t
      { s with pullOwner := some t, pcs := upd s.pcs t (.wakeLook m late) }
  | wakePrio (m : Mode) (late : Bool) (i : Item α) (l : List (Item α)) : (s.pcs t = .wakeLook m late) → (s.prio = i :: l) → Step s t
      { s with prio := l, hist := .took i :: s.hist, pcs := upd s.pcs t (.popEnd m) }
  | wakeTake (m : Mode) (late : Bool) (i : Item α) (l : List (Item α)) : (s.pcs t = .wakeLook m late) → (s.prio = []) → (s.pull = l ++ [i]) → Step s t
      { s with pull := l, hist := .took i :: s.hist, pcs := upd s.pcs t (.popEnd m) }
  | wakeNil (m : Mode) (late : Bool) : (s.pcs t = .wakeLook m late) → (s.prio = []) → (s.pull = []) → Step s t
      { s with pullOwner := none, hist := .popStart t :: s.hist, pcs := upd s.pcs t (.popLock (if late then .last else m)) }
  | peekLock  : (s.pcs t = .peekLock) → (s.pullOwner = none) → Step s t
      { s with pullOwner := some t, pcs := upd s.pcs t (.peekLook) }
  | peekLook  : (s.pcs t = .peekLook) → Step s t
      { s with hist := .peeked (if s.prio ≠ [] then s.prio.head? else s.pull.getLast?) :: s.hist, pcs := upd s.pcs t (.peekEnd) }
  | peekEnd  : (s.pcs t = .peekEnd) → Step s t
      { s with pullOwner := none, pcs := upd s.pcs t (.idle) }
  | emptyLook  : (s.pcs t = .emptyLook) → Step s t
      { s with hist := .saidEmpty s.flag :: s.hist, pcs := upd s.pcs t (.idle) }
  | clearLock  : (s.pcs t = .clearLock) → (s.pullOwner = none) → Step s t
      { s with pullOwner := some t, pcs := upd s.pcs t (.clearLockB) }
  | clearLockB  : (s.pcs t = .clearLockB) → (s.pushOwner = none) → Step s t
      { s with pushOwner := some t, pcs := upd s.pcs t (.clearLook) }
  | clearLook  : (s.pcs t = .clearLook) → Step s t
      { s with pull := [], push := [], prio := [], flag := true, hist := (s.pull ++ s.push ++ s.prio).map Ev.dropped ++ s.hist, pcs := upd s.pcs t (.clearRel) }
  | clearRel  : (s.pcs t = .clearRel) → Step s t
      { s with pushOwner := none, pcs := upd s.pcs t (.clearEnd) }
  | clearEnd  : (s.pcs t = .clearEnd) → Step s t
      { s with pullOwner := none, pcs := upd s.pcs t (.idle) }

theorem getLast?_split {l : List β} {i : β} (h : l.getLast? = some i) : l = l.dropLast ++ [i] := by
  have hne : l ≠ [] := by intro h0; subst h0; simp at h
  rw [List.getLast?_eq_some_getLast hne] at h
  injection h with h
  subst h
  exact (List.dropLast_concat_getLast hne).symm

/-- Closes the side conditions of the views. -/
macro "cq_side" : tactic =>
  `(tactic| first | assumption | (simp_all; done) | (exact getLast?_split (by assumption)))

theorem takePrio_some {s s' : St α} (h : takePrio s = some (i, s')) :
    ∃ l, s.prio = i :: l ∧ s' = { s with prio := l, hist := .took i :: s.hist } := by
  unfold takePrio at h
  split at h
  · cases h
  · rename_i j l hp
    simp only [Option.some.injEq, Prod.mk.injEq] at h
    exact ⟨l, by rw [← h.1]; exact hp, by rw [← h.2, h.1]; rfl⟩

theorem takePrio_none {s : St α} (h : takePrio s = none) : s.prio = [] := by
  unfold takePrio at h
  split at h
  · assumption
  · cases h

theorem takeBack_some {s s' : St α} (h : takeBack s = some (i, s')) :
    ∃ l, s.pull = l ++ [i] ∧ s' = { s with pull := l, hist := .took i :: s.hist } := by
  unfold takeBack at h
  split at h
  · cases h
  · rename_i j hp
    simp only [Option.some.injEq, Prod.mk.injEq] at h
    exact ⟨s.pull.dropLast, by rw [← h.1]; exact getLast?_split hp, by rw [← h.2, h.1]; rfl⟩

theorem takeBack_none {s : St α} (h : takeBack s = none) : s.pull = [] := by
  unfold takeBack at h
  split at h
  · rename_i hp
    exact List.getLast?_eq_none_iff.mp hp
  · cases h

set_option linter.unusedSimpArgs false in
theorem stepPush_view {s s' : St α} {t : Nat} (h : stepPush s t (s.pcs t) = some s') : Step s t s' := by
  cases hp : s.pcs t <;> rw [hp] at h
  all_goals
    simp only [stepPush, St.lockPush, St.lockPull, swapLists, St.goto, St.notify, St.log, St.freePush,
      St.freePull] at h
  all_goals (repeat' split at h)
  all_goals (first | (cases h; done) | skip)
  all_goals (try simp only [Option.some.injEq] at h)
  all_goals (try subst h)
  all_goals
    first
    | (refine Step.pushLock _ ?_ ?_ <;> cq_side; done)
    | (refine Step.pushFast _ ?_ ?_ <;> cq_side; done)
    | (refine Step.pushWin _ ?_ ?_ ?_ <;> cq_side; done)
    | (refine Step.pushSlow _ ?_ ?_ ?_ <;> cq_side; done)
    | (refine Step.pushRel _ ?_ <;> cq_side; done)
    | (refine Step.pushPull _ ?_ ?_ <;> cq_side; done)
    | (refine Step.pushSet _ ?_ <;> cq_side; done)
    | (refine Step.pushPut _ ?_ ?_ <;> cq_side; done)
    | (refine Step.pushNo _ ?_ ?_ <;> cq_side; done)
    | (refine Step.pushDone _ ?_ <;> cq_side; done)
    | (refine Step.pushRelA _ ?_ <;> cq_side; done)
    | (refine Step.pushLockB _ ?_ ?_ <;> cq_side; done)
    | (refine Step.pushPutB _ ?_ <;> cq_side; done)
    | (refine Step.pushRelB _ ?_ <;> cq_side; done)
    | (refine Step.pushCasT _ ?_ ?_ <;> cq_side; done)
    | (refine Step.pushCasF _ ?_ ?_ <;> cq_side; done)
    | (refine Step.pushNote _ ?_ <;> cq_side; done)
    | (refine Step.pushEnd _ ?_ <;> cq_side; done)

set_option linter.unusedSimpArgs false in
theorem stepPrio_view {s s' : St α} {t : Nat} (h : stepPrio s t (s.pcs t) = some s') : Step s t s' := by
  cases hp : s.pcs t <;> rw [hp] at h
  all_goals
    simp only [stepPrio, St.lockPush, St.lockPull, swapLists, St.goto, St.notify, St.log, St.freePush,
      St.freePull] at h
  all_goals (repeat' split at h)
  all_goals (first | (cases h; done) | skip)
  all_goals (try simp only [Option.some.injEq] at h)
  all_goals (try subst h)
  all_goals
    first
    | (refine Step.prioCasT _ ?_ ?_ <;> cq_side; done)
    | (refine Step.prioCasF _ ?_ ?_ <;> cq_side; done)
    | (refine Step.prioLockA _ ?_ ?_ <;> cq_side; done)
    | (refine Step.prioSetA _ ?_ <;> cq_side; done)
    | (refine Step.prioPutA _ ?_ <;> cq_side; done)
    | (refine Step.prioLockB _ ?_ ?_ <;> cq_side; done)
    | (refine Step.prioPutB _ ?_ <;> cq_side; done)
    | (refine Step.prioCasBT _ ?_ ?_ <;> cq_side; done)
    | (refine Step.prioCasBF _ ?_ ?_ <;> cq_side; done)
    | (refine Step.prioNote _ ?_ <;> cq_side; done)
    | (refine Step.prioEnd _ ?_ <;> cq_side; done)

set_option linter.unusedSimpArgs false in
theorem stepTry_view {s s' : St α} {t : Nat} (h : stepTry s t (s.pcs t) = some s') : Step s t s' := by
  cases hp : s.pcs t <;> rw [hp] at h
  case popEnd m =>
    cases h
    exact Step.popEnd m hp
  case popLook m =>
    simp only [stepTry] at h
    split at h
    · rename_i i s1 hq
      obtain ⟨l, h1, h2⟩ := takePrio_some hq
      subst h2
      cases h
      exact Step.popPrio m i l hp h1
    · rename_i hq
      have hq := takePrio_none hq
      split at h
      · rename_i hb
        cases h
        exact Step.popEmpty m hp hq (takeBack_none hb)
      · rename_i i s1 hb
        obtain ⟨l, h1, h2⟩ := takeBack_some hb
        subst h2
        split at h
        · rename_i hl
          cases h
          exact Step.popOne m i l hp hq h1 hl
        · rename_i hl
          cases h
          exact Step.popMore m i l hp hq h1 hl
  case popTake m =>
    simp only [stepTry] at h
    split at h
    · cases h
    · rename_i i s1 hb
      obtain ⟨l, h1, h2⟩ := takeBack_some hb
      subst h2
      split at h
      · rename_i hl
        cases h
        exact Step.takeOne m i l hp h1 hl
      · rename_i hl
        cases h
        exact Step.takeMore m i l hp h1 hl
  case popNone m =>
    simp only [stepTry] at h
    cases m <;> cases h
    · exact Step.popNone _ hp (.inl rfl)
    · exact Step.popWait _ hp (.inl rfl)
    · exact Step.popWait _ hp (.inr rfl)
    · exact Step.popNone _ hp (.inr rfl)
  all_goals
    simp only [stepTry, St.lockPush, St.lockPull, swapLists, St.goto, St.notify, St.log, St.freePush,
      St.freePull] at h
  all_goals (repeat' split at h)
  all_goals (first | (cases h; done) | skip)
  all_goals (try simp only [Option.some.injEq] at h)
  all_goals (try subst h)
  all_goals
    first
    | (refine Step.popLock _ ?_ ?_ <;> cq_side; done)
    | (refine Step.popLockA _ ?_ ?_ <;> cq_side; done)
    | (refine Step.popSwap _ ?_ ?_ <;> cq_side; done)
    | (refine Step.popNil _ ?_ ?_ <;> cq_side; done)
    | (refine Step.popRelA _ ?_ <;> cq_side; done)
    | (refine Step.popLockB _ ?_ ?_ <;> cq_side; done)
    | (refine Step.popSwapB _ ?_ ?_ <;> cq_side; done)
    | (refine Step.popNilB _ ?_ ?_ <;> cq_side; done)
    | (refine Step.popRelB _ ?_ <;> cq_side; done)
    | (refine Step.popNoneA _ ?_ <;> cq_side; done)

set_option linter.unusedSimpArgs false in
theorem stepWait_view {s s' : St α} {t : Nat} (h : stepWait s t (s.pcs t) = some s') : Step s t s' := by
  cases hp : s.pcs t <;> rw [hp] at h
  case waitLook m =>
    simp only [stepWait] at h
    split at h
    · rename_i i s1 hq
      obtain ⟨l, h1, h2⟩ := takePrio_some hq
      subst h2
      cases h
      exact Step.waitPrio m i l hp h1
    · rename_i hq
      have hq := takePrio_none hq
      split at h
      · rename_i i s1 hb
        obtain ⟨l, h1, h2⟩ := takeBack_some hb
        subst h2
        cases h
        exact Step.waitTake m i l hp hq h1
      · rename_i hb
        cases h
        exact Step.wait m hp hq (takeBack_none hb)
  case wakeLook m late =>
    simp only [stepWait] at h
    split at h
    · rename_i i s1 hq
      obtain ⟨l, h1, h2⟩ := takePrio_some hq
      subst h2
      cases h
      exact Step.wakePrio m late i l hp h1
    · rename_i hq
      have hq := takePrio_none hq
      split at h
      · rename_i i s1 hb
        obtain ⟨l, h1, h2⟩ := takeBack_some hb
        subst h2
        cases h
        exact Step.wakeTake m late i l hp hq h1
      · rename_i hb
        cases h
        exact Step.wakeNil m late hp hq (takeBack_none hb)
  all_goals
    simp only [stepWait, St.lockPush, St.lockPull, swapLists, St.goto, St.notify, St.log, St.freePush,
      St.freePull] at h
  all_goals (repeat' split at h)
  all_goals (first | (cases h; done) | skip)
  all_goals (try simp only [Option.some.injEq] at h)
  all_goals (try subst h)
  all_goals
    first
    | (refine Step.waitLock _ ?_ ?_ <;> cq_side; done)
    | (refine Step.wakeLock _ _ ?_ ?_ <;> cq_side; done)

set_option linter.unusedSimpArgs false in
theorem stepRest_view {s s' : St α} {t : Nat} (h : stepRest s t (s.pcs t) = some s') : Step s t s' := by
  cases hp : s.pcs t <;> rw [hp] at h
  case peekLook =>
    simp only [stepRest] at h
    cases h
    exact Step.peekLook hp
  all_goals
    simp only [stepRest, St.lockPush, St.lockPull, swapLists, St.goto, St.notify, St.log, St.freePush,
      St.freePull] at h
  all_goals (repeat' split at h)
  all_goals (first | (cases h; done) | skip)
  all_goals (try simp only [Option.some.injEq] at h)
  all_goals (try subst h)
  all_goals
    first
    | (refine Step.peekLock ?_ ?_ <;> cq_side; done)
    | (refine Step.peekEnd ?_ <;> cq_side; done)
    | (refine Step.emptyLook ?_ <;> cq_side; done)
    | (refine Step.clearLock ?_ ?_ <;> cq_side; done)
    | (refine Step.clearLockB ?_ ?_ <;> cq_side; done)
    | (refine Step.clearLook ?_ <;> cq_side; done)
    | (refine Step.clearRel ?_ <;> cq_side; done)
    | (refine Step.clearEnd ?_ <;> cq_side; done)

/-- Every step is one of the constructors. -/
theorem step_view {s s' : St α} {t : Nat} {c : Choice α} (h : step s t c = some s') : Step s t s' := by
  cases c with
  | call o =>
    simp only [step] at h
    split at h
    · rename_i hb
      have hi : s.pcs t = .idle := by
        revert hb; cases s.pcs t <;> simp
      injection h with h
      subst h
      cases o
      · exact Step.callPush _ hi
      · exact Step.callPrio _ hi
      · exact Step.callPop _ hi (by decide)
      · exact Step.callPop _ hi (by decide)
      · exact Step.callPop _ hi (by decide)
      · exact Step.callPeek hi
      · exact Step.callEmpty hi
      · exact Step.callClear hi
    · cases h
  | wake late =>
    simp only [step] at h
    split at h
    · rename_i m b hp
      split at h
      · cases h
      · rename_i hc
        injection h with h
        subst h
        exact Step.wake _ _ _ hp hc
    · cases h
  | go =>
    simp only [step] at h
    cases h1 : stepPush s t (s.pcs t) with
    | some x => rw [h1] at h; exact stepPush_view (by rw [h1]; exact h)
    | none =>
      rw [h1] at h
      cases h2 : stepPrio s t (s.pcs t) with
      | some x => rw [h2] at h; exact stepPrio_view (by rw [h2]; exact h)
      | none =>
        rw [h2] at h
        cases h3 : stepTry s t (s.pcs t) with
        | some x => rw [h3] at h; exact stepTry_view (by rw [h3]; exact h)
        | none =>
          rw [h3] at h
          cases h4 : stepWait s t (s.pcs t) with
          | some x => rw [h4] at h; exact stepWait_view (by rw [h4]; exact h)
          | none => rw [h4] at h; exact stepRest_view h

end Verif.CmdQueue
