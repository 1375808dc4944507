import Verif.Lemmas.CmdQueueWake
/-
C39: the command queue between threads - every schedule of any number of threads.

The claims are written in `Props/QueueSpec.lean` over the history of calls, returns and departures.
-/
namespace Verif.CmdQueue

/-- C39.  Nothing leaves the queue twice, and what leaves was put in before, unchanged. -/
theorem queue_exactly_once {s : St α} (h : Reach s) : ExactlyOnce s.hist := by
  intro a x b hab
  rcases hab with hab | hab
  · exact (allOk_split (reach_inv h).evs.ok hab).2.2
  · exact allOk_split (reach_inv h).evs.ok hab

/-- C39.  First in, first out within a class: when a command is taken, every command of the same class
whose push had returned before its own push was called has left already. -/
theorem queue_fifo {s : St α} (h : Reach s) : Fifo s.hist := fun _ _ _ hab =>
  (allOk_split (reach_inv h).evs.ok hab).1

/-- C39.  Priority first: no regular command is taken while a priority command whose push has returned
is inside. -/
theorem queue_priority_first {s : St α} (h : Reach s) : PrioFirst s.hist := fun _ _ _ hab =>
  (allOk_split (reach_inv h).evs.ok hab).2.1

theorem startTail_split {t : Nat} {c d : List (Ev α)} (hc : Ev.popStart t ∉ c) :
    startTail t (c ++ Ev.popStart t :: d) = d := by
  induction c with
  | nil => simp [startTail]
  | cons e c ih =>
    have ih := ih (fun hm => hc (List.mem_cons_of_mem _ hm))
    cases e
    case popStart u =>
      have hu : u ≠ t := by
        intro hu; subst hu; exact hc (by simp)
      simp only [List.cons_append, startTail, if_neg hu]
      exact ih
    all_goals exact ih

/-- C39.  An attempt that comes back with nothing is right: everything whose push had returned before
the attempt began has left. -/
theorem queue_none_means_empty {s : St α} (h : Reach s) : NoneMeansEmpty s.hist := by
  intro a t c d hab hc x hx
  have := allOk_split (reach_inv h).evs.ok hab
  exact this x (by rw [startTail_split hc]; exact hx)

/-- C39.  When `empty()` answers yes, everything whose push had returned has left. -/
theorem queue_said_empty {s : St α} (h : Reach s) : SaidEmptyIsEmpty s.hist := fun _ _ hab =>
  allOk_split (reach_inv h).evs.ok hab rfl

/-- C39.  What `try_peek` shows was put in and has not left. -/
theorem queue_peek {s : St α} (h : Reach s) : PeekIsThere s.hist := fun _ _ _ hab =>
  allOk_split (reach_inv h).evs.ok hab

/-! ### Nothing is lost -/

/-- The stages of a lone `try_pop`. -/
def soloOk (t : Nat) (h0 : List (Ev α)) (h : List (Ev α)) : PC α → Prop
  | .popLock m | .popLook m | .popLockA m | .popSwap m | .popRelA m | .popTake m
  | .popNoneA m | .popNone m => m = .once ∧ h = h0
  | .popLockB m | .popSwapB m | .popRelB m | .popEnd m => m = .once ∧ ∃ y, h = .took y :: h0
  | .idle => (∃ y, h = .took y :: h0) ∨ h = .popNone t :: h0
  | _ => False

theorem solo_step {s s' : St α} {t : Nat} {h0 : List (Ev α)} (st : Step s t s') (hni : s.pcs t ≠ .idle)
    (h : soloOk t h0 s.hist (s.pcs t)) : soloOk t h0 s'.hist (s'.pcs t) := by
  cases st <;> simp_all [soloOk, upd]

/-- All threads but `t` are between calls. -/
def Alone (t : Nat) (s : St α) : Prop := ∀ u, u ≠ t → s.pcs u = .idle

theorem alone_step {s s' : St α} {t : Nat} (h : Alone t s) (st : Step s t s') : Alone t s' := by
  intro u hu
  rcases other_step st hu with h1 | h1 <;> rw [h1, h u hu] <;> rfl

theorem solo_runs {t : Nat} {h0 : List (Ev α)} (n : Nat) {s : St α} (hn : left (s.pcs t) ≤ n)
    (hi : Inv s) (ha : Alone t s) (hk : soloOk t h0 s.hist (s.pcs t)) :
    ∃ tr s', runs s tr = some s' ∧ (∀ e ∈ tr, e = (t, .go)) ∧ s'.pcs t = .idle ∧ Alone t s' ∧ Inv s' ∧
      soloOk t h0 s'.hist .idle := by
  induction n generalizing s with
  | zero =>
    refine ⟨[], s, rfl, by simp, ?_, ha, hi, ?_⟩ <;> revert hk hn <;> cases s.pcs t <;> simp [left, soloOk]
  | succ n ih =>
    by_cases hd : s.pcs t = .idle
    · exact ⟨[], s, rfl, by simp, hd, ha, hi, by rw [hd] at hk; exact hk⟩
    · have hw : ∀ m b, s.pcs t ≠ .waiting m b := by
        intro m b hx; rw [hx] at hk; exact hk
      obtain ⟨u, s1, h1⟩ := someone_moves hi hd hw
      have hu : u = t := by
        refine Classical.byContradiction fun hu => ?_
        have h2 := left_go h1
        rw [ha u hu] at h2
        exact absurd h2 (by simp [left])
      subst hu
      have st := step_view h1
      obtain ⟨tr, s2, h2, h3, h4⟩ := ih (s := s1) (by have := left_go h1; omega) (inv_step hi st)
        (alone_step ha st) (solo_step st hd hk)
      exact ⟨(u, .go) :: tr, s2, by simp only [runs, h1]; exact h2,
        by intro e he; rcases List.mem_cons.mp he with he | he
           · exact he
           · exact h3 e he, h4⟩

/-- Steps that a thread taking alone makes. -/
def takes (t : Nat) : Nat × Choice α → Prop
  | (u, .call .tryPop) => u = t
  | (u, .go) => u = t
  | _ => False

theorem reach_append {s s' : St α} {tr : List (Nat × Choice α)} (h : Reach s) (hr : runs s tr = some s') :
    Reach s' := by
  obtain ⟨tr0, h0⟩ := h
  exact ⟨tr0 ++ tr, by rw [runs_append, h0]; exact hr⟩

/-- C39.  A lone `try_pop`, with all other threads between calls, ends; it takes something, or comes back
empty-handed. -/
theorem queue_try_pop_ends {s : St α} (h : Reach s) {t : Nat} (hq : ∀ u, s.pcs u = .idle) :
    ∃ tr s', runs s ((t, .call .tryPop) :: tr) = some s' ∧ (∀ e ∈ tr, e = (t, .go)) ∧ (∀ u, s'.pcs u = .idle) ∧
      ((∃ y, s'.hist = .took y :: .popStart t :: s.hist) ∨ s'.hist = .popNone t :: .popStart t :: s.hist) := by
  have h1 : step s t (.call .tryPop) = some (call s t .tryPop) := by
    simp [step, hq t]
  have st := step_view h1
  have hi := reach_inv h
  have ha : Alone t s := fun u _ => hq u
  obtain ⟨tr, s', h2, h3, h4, h5, _, h6⟩ := solo_runs (t := t) (h0 := .popStart t :: s.hist) _ (Nat.le_refl _)
    (inv_step hi st) (alone_step ha st) (by simp [call, St.goto, St.log, upd, soloOk])
  refine ⟨tr, s', by simp only [runs, h1]; exact h2, h3, ?_, h6⟩
  intro u
  by_cases hu : u = t
  · rw [hu]; exact h4
  · exact h5 u hu

theorem contents_drop {s s' : St α} (hi : Inv s) (hi' : Inv s') (hq : ∀ u, s.pcs u = .idle)
    {y : Item α} {t : Nat} (hh : s'.hist = .took y :: .popStart t :: s.hist)
    (hp : (All s').Perm (All s)) :
    (s'.pull ++ (s'.push ++ s'.prio)).length < (s.pull ++ (s.push ++ s.prio)).length := by
  have h1 := hp.length_eq
  have h2 : goneList s'.hist = y :: goneList s.hist := by rw [hh]; rfl
  simp only [All, List.length_append, h2, List.length_cons] at h1 ⊢
  omega

theorem all_runs {t : Nat} {tr : List (Nat × Choice α)} {s s' : St α} (hr : runs s tr = some s')
    (ht : ∀ e ∈ tr, takes t e) (hn : pend (s.pcs t) = none) :
    (All s').Perm (All s) ∧ pend (s'.pcs t) = none := by
  induction tr generalizing s with
  | nil => simp only [runs, Option.some.injEq] at hr; subst hr; exact ⟨.refl _, hn⟩
  | cons e tr ih =>
    obtain ⟨u, c⟩ := e
    have hu := ht _ (List.mem_cons_self)
    simp only [runs] at hr
    split at hr
    · cases hr
    · rename_i s1 h1
      have hut : u = t := by
        revert hu
        cases c with
        | call o => cases o <;> simp [takes]
        | go => simp [takes]
        | wake b => simp [takes]
      subst hut
      have st := step_view h1
      have hp := all_step st
      rw [hn] at hp
      have hn1 : pend (s1.pcs u) = none := by
        rcases pend_step st with ⟨h2, _⟩ | ⟨_, h2, _⟩ | ⟨_, _, _, _, v, b, h2, h3⟩ | ⟨i, h2, _⟩
        · rw [h2]; exact hn
        · exact h2
        · exfalso
          cases c with
          | call o =>
            cases o <;> simp only [takes] at hu
            simp only [step] at h1
            split at h1
            · cases h1; cases h3
            · cases h1
          | go =>
            cases st <;> simp_all
            all_goals simp [step, *, stepPush, stepPrio, stepTry, stepWait, stepRest] at h1
          | wake b => exact hu
        · rw [hn] at h2; cases h2
      obtain ⟨h4, h5⟩ := ih hr (fun e he => ht e (List.mem_cons_of_mem _ he)) hn1
      exact ⟨h4.trans hp, h5⟩

/-- C39.  Nothing is lost: from any moment when all threads are between calls, one thread calling
`try_pop` over and over takes every command whose push has returned and that has not left. -/
theorem queue_nothing_lost {s : St α} (h : Reach s) (hq : ∀ u, s.pcs u = .idle) (t : Nat) :
    ∃ tr s', runs s tr = some s' ∧ (∀ e ∈ tr, takes t e) ∧
      ∀ x, .returned x ∈ s.hist → ¬ gone s.hist x → .took x ∈ s'.hist := by
  suffices hs : ∃ tr s', runs s tr = some s' ∧ (∀ e ∈ tr, takes t e) ∧
      (∃ es, s'.hist = es ++ s.hist ∧ ∀ x, .dropped x ∉ es) ∧
      ∀ x, .returned x ∈ s.hist → gone s'.hist x by
    obtain ⟨tr, s', h1, h2, ⟨es, h3, h4⟩, h5⟩ := hs
    refine ⟨tr, s', h1, h2, ?_⟩
    intro x hx hg
    rcases h5 x hx with h6 | h6
    · exact h6
    · rw [h3] at h6
      rcases List.mem_append.mp h6 with h6 | h6
      · exact absurd h6 (h4 x)
      · exact absurd (.inr h6) hg
  generalize hn : (s.pull ++ (s.push ++ s.prio)).length = n
  induction n using Nat.strongRecOn generalizing s with
  | _ n ih =>
    obtain ⟨tr, s', h1, h2, h3, h4⟩ := queue_try_pop_ends h (t := t) hq
    have htk : ∀ e ∈ ((t, .call .tryPop) :: tr : List (Nat × Choice α)), takes t e := by
      intro e he
      rcases List.mem_cons.mp he with he | he
      · subst he; simp [takes]
      · rw [h2 e he]; simp [takes]
    have hr' := reach_append h h1
    rcases h4 with ⟨y, h4⟩ | h4
    · have hp := (all_runs h1 htk (by rw [hq t]; rfl)).1
      have hlt := contents_drop (reach_inv h) (reach_inv hr') hq h4 hp
      obtain ⟨tr2, s2, h5, h6, ⟨es, h7, h8⟩, h9⟩ := ih _ (hn ▸ hlt) hr' h3 rfl
      refine ⟨((t, .call .tryPop) :: tr) ++ tr2, s2, ?_, ?_, ⟨es ++ [.took y, .popStart t], ?_, ?_⟩, ?_⟩
      · rw [runs_append, h1]; exact h5
      · intro e he
        rcases List.mem_append.mp he with he | he
        · exact htk e he
        · exact h6 e he
      · rw [h7, h4]; simp
      · intro x hx
        rcases List.mem_append.mp hx with hx | hx
        · exact h8 x hx
        · simp at hx
      · intro x hx
        exact h9 x (by rw [h4]; simp [hx])
    · refine ⟨_, s', h1, htk, ⟨[.popNone t, .popStart t], by rw [h4]; rfl, by simp⟩, ?_⟩
      intro x hx
      have hne := queue_none_means_empty hr' [] t [] s.hist (by rw [h4]; rfl) (by simp) x hx
      rw [h4]
      exact gone_cons hne

/-! ### Waking up -/

/-- C39.  With one taker no wake-up is lost: while the taker sleeps un-notified and a command whose push
has returned is inside, another thread is in the middle of a call - one that has taken the empty flag
down and will notify, or that is about to find the flag up and notify. -/
theorem queue_no_lost_wakeup {c : Nat} {tr : List (Nat × Choice α)} {s : St α} (hr : runs init tr = some s)
    (ht : OneTaker c tr) (hs : asleep s c) {x : Item α} (hx : .returned x ∈ s.hist) (hg : ¬ gone s.hist x) :
    ∃ u, u ≠ c ∧ s.pcs u ≠ .idle ∧
      (notifier (s.pcs u) = true ∨ (s.flag = true ∧ ∃ i, s.pcs u = .prioCasB i)) := by
  have hi := reach_inv ⟨tr, hr⟩
  obtain ⟨hw, _⟩ := runs_wake inv_init (wake_init c).1 (wake_init c).2 hr ht
  obtain ⟨m, hm⟩ := hs
  have hsl : sleeps (s.pcs c) = true := by rw [hm]; rfl
  have fin : ∀ u, (notifier (s.pcs u) = true ∨ (s.flag = true ∧ ∃ i, s.pcs u = .prioCasB i)) →
      ∃ u, u ≠ c ∧ s.pcs u ≠ .idle ∧
        (notifier (s.pcs u) = true ∨ (s.flag = true ∧ ∃ i, s.pcs u = .prioCasB i)) := by
    intro u hu
    refine ⟨u, ?_, ?_, hu⟩
    · intro he; subst he
      rw [hm] at hu
      rcases hu with hu | ⟨_, i, hu⟩ <;> cases hu
    · intro he
      rw [he] at hu
      rcases hu with hu | ⟨_, i, hu⟩ <;> cases hu
  rcases hw.sleep hsl with ⟨hf, hp⟩ | ⟨u, hu⟩
  · obtain ⟨h1, h2⟩ := hi.seen.empty hf
    by_cases h3 : s.prio = []
    · exact absurd (all_empty hi.ids h1 h2 h3 hx) hg
    · obtain ⟨u, i, hu, _⟩ := hi.seen.emptyP hf h3
      refine fin u (.inr ⟨hf, i, ?_⟩)
      revert hu; cases s.pcs u <;> simp [atPrioCas]
  · exact fin u (.inl hu)

/-- C39.  In particular, once all other threads are between calls, a sleeping taker has nothing to
take. -/
theorem queue_sleeps_only_when_empty {c : Nat} {tr : List (Nat × Choice α)} {s : St α}
    (hr : runs init tr = some s) (ht : OneTaker c tr) (hs : asleep s c) (hq : ∀ u, u ≠ c → s.pcs u = .idle)
    {x : Item α} (hx : .returned x ∈ s.hist) : gone s.hist x := by
  refine Classical.byContradiction fun hg => ?_
  obtain ⟨u, h1, h2, _⟩ := queue_no_lost_wakeup hr ht hs hx hg
  exact h2 (hq u h1)

/-- C39.  No deadlock: whenever a thread is inside a call and not asleep, some thread can move. -/
theorem queue_no_deadlock {s : St α} (h : Reach s) {t : Nat} (h1 : s.pcs t ≠ .idle)
    (h2 : ∀ m b, s.pcs t ≠ .waiting m b) : ∃ u s', step s u .go = some s' :=
  someone_moves (reach_inv h) h1 h2

/-- The longest any call runs, in steps of its own, without being asleep. -/
theorem left_le (p : PC α) : left p ≤ 15 := by cases p <;> simp [left]

/-- C39.  Every call ends after at most fifteen steps of its own thread, sleep aside: each step
brings the end nearer. -/
theorem queue_calls_are_short {s s' : St α} {t : Nat} (h : step s t .go = some s') :
    left (s'.pcs t) < left (s.pcs t) ∧ left (s.pcs t) ≤ 15 := ⟨left_go h, left_le _⟩

/-! ### Concrete schedules -/

/-- `n` steps of thread `t`. -/
def gos (t n : Nat) : List (Nat × Choice Nat) := List.replicate n (t, .go)

/-- Thread 0 takes; threads 1 and 2 push, one of them a priority command, while the taker sleeps. -/
def exTrace : List (Nat × Choice Nat) :=
  (0, .call .pop) :: gos 0 8 ++ (1, .call (.push 10)) :: gos 1 3 ++ (2, .call (.push 20)) :: gos 2 4 ++
    gos 1 5 ++ (1, .call (.pushPriority 30)) :: gos 1 5 ++ [(0, .wake false)] ++ gos 0 3 ++
    (0, .call .pop) :: gos 0 6

/-- The history exists: the priority command is taken first, then the regular ones. -/
example : (runs init exTrace).map (fun s => s.hist.filterMap fun e =>
      match e with | .took i => some i.val | _ => none) = some [10, 30] := by decide +kernel

/-- The hypotheses of `queue_no_lost_wakeup` are met: in the middle of the first push the taker sleeps
while a command whose push has returned is inside. -/
example : ((runs init ((0, .call .pop) :: gos 0 8 ++ (1, .call (.push 10)) :: gos 1 3 ++
      (2, .call (.push 20)) :: gos 2 4)).map (fun s =>
        (s.pcs 0, s.push.map (·.val), decide (Ev.returned ⟨1, false, 20⟩ ∈ s.hist), s.pcs 1))) =
    some (.waiting .block false, [20], true, .pushPull ⟨0, false, 10⟩) := by decide +kernel

instance [DecidableEq α] (h : List (Ev α)) (x : Item α) : Decidable (gone h x) :=
  inferInstanceAs (Decidable (_ ∨ _))

/-- Two threads take from the same queue. -/
def twoTakers : List (Nat × Choice Nat) :=
  (0, .call .pop) :: gos 0 6 ++ (1, .call .pop) :: gos 1 6 ++ (2, .call (.push 10)) :: gos 2 8 ++
    gos 1 3 ++ gos 0 2 ++ (2, .call (.push 20)) :: gos 2 4

/-- With two takers a wake-up can be lost: all calls have ended, a command is inside, and thread 0
sleeps without having been notified.  (`pop` takes from `pullElements` at `:249-253` without looking at
`pushElements` or raising the flag, so the next push believes nobody waits.) -/
theorem two_takers_lost_wakeup :
    ((runs init twoTakers).map fun s =>
      (s.pcs 0, s.pcs 1, s.pcs 2, s.push.map (·.val), decide (Ev.returned ⟨1, false, 20⟩ ∈ s.hist))) =
    some (.waiting .block false, .idle, .idle, [20], true) := by decide +kernel

/-- So the claim without `OneTaker` is false. -/
theorem one_taker_needed :
    ¬ ∀ (tr : List (Nat × Choice Nat)) (s : St Nat) (c : Nat) (x : Item Nat), runs init tr = some s →
      asleep s c → (∀ u, u ≠ c → s.pcs u = .idle) → .returned x ∈ s.hist → gone s.hist x := by
  intro hall
  have h0 : (runs init twoTakers).isSome = true := by decide +kernel
  obtain ⟨s, hs⟩ := Option.isSome_iff_exists.mp h0
  have h1 := two_takers_lost_wakeup
  have h2 : ((runs init twoTakers).map fun s => (decide (gone s.hist (⟨1, false, 20⟩ : Item Nat)))) = some false := by decide +kernel
  have h3 : ∀ u, 3 ≤ u → s.pcs u = .idle := by
    intro u hu
    have hgen : ∀ (tr : List (Nat × Choice Nat)) (s0 s1 : St Nat), runs s0 tr = some s1 →
        (∀ e ∈ tr, e.1 < 3) → s0.pcs u = .idle → s1.pcs u = .idle := by
      intro tr
      induction tr with
      | nil => intro s0 s1 h _ hp; simp only [runs, Option.some.injEq] at h; subst h; exact hp
      | cons e tr ih =>
        intro s0 s1 h hb hp
        obtain ⟨t, c⟩ := e
        simp only [runs] at h
        split at h
        · cases h
        · rename_i sm h4
          have ht : u ≠ t := by have := hb (t, c) (by simp); simp only at this; omega
          refine ih sm s1 h (fun e he => hb e (List.mem_cons_of_mem _ he)) ?_
          rcases other_step (step_view h4) ht with h5 | h5 <;> rw [h5, hp] <;> rfl
    exact hgen twoTakers init s hs (by decide +kernel) rfl
  rw [hs] at h1 h2
  simp only [Option.map_some, Option.some.injEq, Prod.mk.injEq, decide_eq_true_eq, decide_eq_false_iff_not] at h1 h2
  refine h2 (hall twoTakers s 0 ⟨1, false, 20⟩ hs ⟨_, h1.1⟩ ?_ h1.2.2.2.2)
  intro u hu
  match u, hu with
  | 1, _ => exact h1.2.1
  | 2, _ => exact h1.2.2.1
  | u + 3, _ => exact h3 _ (by omega)

/-- `empty()` may say "not empty" of an empty queue (the flag is only raised by `try_pop` and `clear`),
and `try_peek` may show nothing although a command is inside (it does not look at `pushElements`). -/
theorem empty_and_peek_are_one_sided :
    ((runs init ((0, .call .pop) :: gos 0 6 ++ (2, .call (.push 10)) :: gos 2 8 ++ gos 0 3 ++
        (0, .call .isEmpty) :: gos 0 1 ++ (2, .call (.push 20)) :: gos 2 4 ++ (0, .call .peek) :: gos 0 3)).map
      fun s => (s.hist.filterMap fun e =>
        match e with
        | .saidEmpty b => some (some b)
        | .peeked none => some none
        | _ => none)) = some [none, some false] := by decide +kernel

end Verif.CmdQueue
