import Verif.Props.QueryProps
/-!
# Examples and counterexamples for C57

A federation of a root broker 0, a core 1 with the federates 2 and 3, and a core 4 with the federate 5.  Query 0 is
one whose answers are kept for reuse (like `data_flow_graph`), query 1 one whose answers are not
(like `global_time`).
-/
namespace Verif.Query

def small : Net where
  size := 6
  par := fun n => match n with | 0 => 0 | 1 => 0 | 2 => 1 | 3 => 1 | 4 => 0 | 5 => 4 | n + 1 => n
  kind := fun n => match n with | 0 => .broker | 1 => .core | 4 => .core | _ => .fed
  types := 2
  reuse := fun i => i == 0

theorem small_ok : small.Ok where
  root := rfl
  below := by
    intro n hn
    match n with
    | 0 => exact absurd rfl hn
    | 1 => decide
    | 2 => decide
    | 3 => decide
    | 4 => decide
    | 5 => decide
    | n + 6 => show n + 5 < n + 6; omega
  rootKind := rfl
  fed := by
    intro n hn h
    match n, h with
    | 0, _ => exact absurd rfl hn
    | 1, _ => decide
    | 2, _ => decide
    | 3, _ => decide
    | 4, _ => decide
    | 5, _ => decide
    | n + 6, h => exact absurd h (by show ¬ (n + 6 < 6); omega)
  leaf := by
    intro n hn h
    match n, h with
    | 0, _ => exact absurd rfl hn
    | 1, _ => decide
    | 2, _ => decide
    | 3, _ => decide
    | 4, _ => decide
    | 5, _ => decide
    | n + 6, h => exact absurd h (by show ¬ (n + 6 < 6); omega)

/-- federate 2 is busy -/
def busy2 : Node → Bool := fun u => u == 2

/-- Two users ask the root; the second while the answers for the first are on their way. -/
def twoUsers : List Ev :=
  [.ask 0 1, .take 0, .take 0, .ask 0 1, .take 0, .take 0, .take 0, .take 0, .take 0, .take 0, .take 0, .take 0, .take 0, .take 0]

theorem twoUsers_steady : Steady small 1 twoUsers where
  stay := by intro v u; simp [twoUsers]
  broker := by
    intro v h
    have : v = 0 := by simpa [twoUsers] using h
    subst this; decide
  named := by intro v; simp [twoUsers]
  still := .inr (by intro f b; simp [twoUsers])

/-- both have been answered, and nothing is left on its way -/
example : ((start busy2).run small twoUsers).flight = [] ∧ ((start busy2).run small twoUsers).answers.map (·.1) = [0, 1] := by decide +kernel

example : times ((start busy2).run small twoUsers) 1 = 1 :=
  C57_answered (v := 0) small_ok twoUsers_steady (fun m hm => by
    have : ((start busy2).run small twoUsers).flight = [] := by decide +kernel
    rw [this] at hm; cases hm) (by unfold Asked; decide +kernel)

/-- for kept answers locks may change; the second user gets the kept answer at once -/
def keptRun : List Ev :=
  [.ask 0 0, .lock 3 true, .take 0, .lock 2 false, .take 0, .take 0, .take 0, .take 0, .take 0, .take 0, .take 0, .ask 0 0]

theorem keptRun_steady : Steady small 0 keptRun where
  stay := by intro v u; simp [keptRun]
  broker := by
    intro v h
    have : v = 0 := by simpa [keptRun] using h
    subst this; decide
  named := by intro v; simp [keptRun]
  still := .inl rfl

example : ((start busy2).run small keptRun).flight = [] ∧ ((start busy2).run small keptRun).answers.map (·.1) = [0, 1] := by decide +kernel

example : InRange small (twoUsers ++ keptRun) := by
  constructor
  · intro v i h
    simp [twoUsers, keptRun] at h
    rcases h with ⟨rfl, rfl⟩ | ⟨rfl, rfl⟩ <;> decide
  · intro v u h
    simp [twoUsers, keptRun] at h

/-- core 4 goes while the root waits for it alone -/
def goneRun : List Ev := [.ask 0 1, .take 0, .take 1, .take 1, .take 1]

theorem goneRun_steady : Steady small 1 goneRun where
  stay := by intro v u; simp [goneRun]
  broker := by
    intro v h
    have : v = 0 := by simpa [goneRun] using h
    subst this; decide
  named := by intro v; simp [goneRun]
  still := .inr (by intro f b; simp [goneRun])

/-- The hypotheses of `C57_drop` are met: the user waits, core 4 is the only one awaited, nothing is kept. -/
example : times ((start busy2).run small goneRun) 0 = 0 ∧
    times (((start busy2).run small goneRun).step small (.drop 0 4)) 0 = 1 := by
  refine ⟨by decide +kernel, (C57_drop (i := 1) (v := 0) small_ok goneRun_steady (by decide) _ rfl (by unfold Asked; decide +kernel) ?_ ?_).1⟩
  · rintro w ⟨p, hp, rfl⟩
    have h : (((start busy2).run small goneRun).node 0 |>.slot 1).b.missing = [(3, .core, 4)] := by decide +kernel
    rw [h] at hp
    rw [List.mem_singleton.1 hp]
  · intro j hj
    have : j = 0 := by omega
    subst this
    unfold Keeps
    decide +kernel

/-- Core 4 goes while core 1 is awaited as well: the user goes on waiting (`C57_drop_waits`). -/
example : times (((start busy2).run small [.ask 0 1]).step small (.drop 0 4)) 0 = 0 ∧ Awaits (((start busy2).run small [.ask 0 1]).step small (.drop 0 4)) 0 1 1 := by
  have hs : Steady small 1 [.ask 0 1] := by
    refine ⟨by intro v u; simp, ?_, by intro v; simp, .inr (by intro f b; simp)⟩
    intro v h
    have : v = 0 := by simpa using h
    subst this; decide
  have hm : (((start busy2).run small [.ask 0 1]).node 0 |>.slot 1).b.missing = [(2, .core, 1), (3, .core, 4)] := by decide +kernel
  exact C57_drop_waits (q := 0) (v := 0) small_ok hs _ rfl (by unfold Asked; decide +kernel) ⟨(2, .core, 1), by rw [hm]; exact List.mem_cons_self .., rfl⟩ (by decide)

/-! ## What goes wrong otherwise -/

theorem lists_src {net : Net} {i v v' i' t : Nat} {l : List (Kind × Ans)} (h : Lists net i v (.doc v' i' t l)) :
    (l.map (fun e => e.2.src)).Perm ((net.kids v).map some) ∧ ∀ e ∈ l, ∀ u, e.2.src = some u → Lists net i u e.2 := by
  obtain ⟨a, ha⟩ : ∃ a, a = Ans.doc v' i' t l := ⟨_, rfl⟩
  rw [← ha] at h
  cases h with
  | doc _ t' es hp hs =>
    injection ha with _ _ _ ha
    subst ha
    constructor
    · rw [List.map_map]
      have : es.map ((fun e : Kind × Ans => e.2.src) ∘ fun e => (net.kind e.1, e.2)) = (es.map (·.1)).map some := by
        rw [List.map_map]
        apply List.map_congr_left
        intro e he
        exact (hs e he).src
      rw [this]
      exact hp.map _
    · intro e he u hu
      obtain ⟨e', he', rfl⟩ := List.mem_map.1 he
      have := (hs e' he').src
      rw [this] at hu
      cases hu
      exact hs e' he'

/-- Locks change hands between two users' requests: the number of a place holder then means another
federate than before. -/
def lockRun : List Ev :=
  [.ask 0 1, .take 0, .take 0, .lock 2 false, .ask 0 1, .take 3, .take 3, .take 0, .take 2, .take 3, .take 3, .take 2, .take 2]

/-- Without reuse, if a lock changes hands between two requests, a user is given an answer which contains federate
2 twice and federate 3 not at all (CommonCore.cpp:2824-2843 numbers only those who have to wait, and a
second request starts the builder again while answers to the first are on their way). -/
theorem C57_locks_counterexample :
    ∃ (busy : Node → Bool) (es : List Ev) (a : Ans), (∀ v u, Ev.drop v u ∉ es ∧ Ev.err v u ∉ es) ∧ (∀ v i, Ev.ask v i ∈ es → v = 0 ∧ i = 1) ∧
      (∀ v i, Ev.named v i ∉ es) ∧ Asked ((start busy).run small es) 0 0 1 ∧ Answered ((start busy).run small es) 0 a ∧ ¬ Lists small 1 0 a := by
  refine ⟨fun u => u == 2 || u == 3, lockRun,
    .doc 0 1 3 [(.core, .doc 4 1 5 [(.fed, .doc 5 1 5 [])]), (.core, .doc 1 1 4 [(.fed, .doc 2 1 4 []), (.fed, .doc 2 1 6 [])])],
    by intro v u; simp [lockRun], by intro v i; simp [lockRun], by intro v i; simp [lockRun],
    by unfold Asked; decide +kernel, ?_, ?_⟩
  · exact List.mem_cons_self ..
  · intro h
    have h1 := (lists_src h).2 _ (List.mem_cons_of_mem _ (List.mem_cons_self ..)) 1 rfl
    have h2 := (lists_src h1).1
    revert h2
    decide +kernel

/-- A core enters the error state while its answer to a query without reuse is awaited, and another user asks:
the builder starts again without the core, is complete, answers the second user only, and the first is never
answered (CoreBroker.cpp:4021-4044, 4172-4198). -/
def errRun : List Ev :=
  [.ask 0 1, .err 0 1, .err 0 4, .ask 0 1, .take 0, .take 0, .take 0, .take 0, .take 0, .take 0]

theorem C57_error_counterexample :
    ∃ es : List Ev, (∀ v u, Ev.drop v u ∉ es) ∧ (∀ v i, Ev.named v i ∉ es) ∧ (∀ f b, Ev.lock f b ∉ es) ∧ (∀ v i, Ev.ask v i ∈ es → v = 0) ∧
      Asked ((start busy2).run small es) 0 0 1 ∧ Asked ((start busy2).run small es) 1 0 1 ∧ Quiet ((start busy2).run small es) 1 ∧
      times ((start busy2).run small es) 0 = 0 ∧ times ((start busy2).run small es) 1 = 1 := by
  refine ⟨errRun, by intro v u; simp [errRun], by intro v i; simp [errRun], by intro f b; simp [errRun], by intro v i; simp [errRun]; intro h _; exact h,
    by unfold Asked; decide +kernel, by unfold Asked; decide +kernel, ?_, by decide +kernel, by decide +kernel⟩
  intro m hm
  have : ((start busy2).run small errRun).flight = [] := by decide +kernel
  rw [this] at hm; cases hm

/-- Two users ask a core directly: only the second is answered (CommonCore.cpp:4314-4328 compares only the last
requester with the direct one). -/
def directRun : List Ev := [.ask 1 1, .ask 1 1, .take 0, .take 0, .take 0, .take 0]

theorem C57_direct_counterexample :
    ∃ es : List Ev, (∀ v u, Ev.drop v u ∉ es ∧ Ev.err v u ∉ es) ∧ (∀ v i, Ev.named v i ∉ es) ∧ (∀ f b, Ev.lock f b ∉ es) ∧
      Asked ((start busy2).run small es) 0 1 1 ∧ Asked ((start busy2).run small es) 1 1 1 ∧ Quiet ((start busy2).run small es) 1 ∧
      times ((start busy2).run small es) 0 = 0 ∧ times ((start busy2).run small es) 1 = 1 := by
  refine ⟨directRun, by intro v u; simp [directRun], by intro v i; simp [directRun], by intro f b; simp [directRun],
    by unfold Asked; decide +kernel, by unfold Asked; decide +kernel, ?_, by decide +kernel, by decide +kernel⟩
  intro m hm
  have : ((start busy2).run small directRun).flight = [] := by decide +kernel
  rw [this] at hm; cases hm

/-- A query to a core by its name: the user is given "#wait" and nothing more, and when the federate has
answered `requesters.back()` is used on an empty list (CommonCore.cpp:5127-5157, 4320-4328). -/
theorem C57_named_counterexample :
    ∃ es : List Ev, (∀ v u, Ev.drop v u ∉ es ∧ Ev.err v u ∉ es) ∧ (∀ v i, Ev.ask v i ∉ es) ∧ (∀ f b, Ev.lock f b ∉ es) ∧
      Asked ((start busy2).run small es) 0 1 1 ∧ ((start busy2).run small es).answers = [(0, .wait)] ∧
      (((start busy2).run small es).node 1 |>.slot 1).bad = true :=
  ⟨[.named 1 1, .take 0, .take 0], by intro v u; simp, by intro v i; simp, by intro f b; simp,
    by unfold Asked; decide +kernel, rfl, by decide +kernel⟩

/-- As `goneRun`, but the broker keeps the answer to query 0. -/
def returnRun : List Ev := [.ask 0 0, .take 0, .take 0, .take 0, .take 0, .ask 0 1, .take 0, .take 1]

/-- Without the last hypothesis `C57_drop` is false: a kept answer to a query with a smaller number ends the loop
(`return` instead of `continue`, CoreBroker.cpp:3488-3490), and the user waits for the member which has gone. -/
theorem C57_return_counterexample :
    ∃ es : List Ev, Steady small 1 es ∧ Asked ((start fun _ => false).run small es) 1 0 1 ∧
      (∀ w, Awaits ((start fun _ => false).run small es) 0 1 w → w = 4) ∧ Keeps ((start fun _ => false).run small es) 0 0 ∧
      times (((start fun _ => false).run small es).step small (.drop 0 4)) 1 = 0 := by
  refine ⟨returnRun, ⟨by intro v u; simp [returnRun], ?_, by intro v; simp [returnRun], .inr (by intro f b; simp [returnRun])⟩,
    by unfold Asked; decide +kernel, ?_, by unfold Keeps; decide +kernel, by decide +kernel⟩
  · intro v h
    have : v = 0 := by simpa [returnRun] using h
    subst this; decide
  · rintro w ⟨p, hp, rfl⟩
    have h : (((start fun _ => false).run small returnRun).node 0 |>.slot 1).b.missing = [(3, .core, 4)] := by decide +kernel
    rw [h] at hp
    rw [List.mem_singleton.1 hp]

/-- `C57_fresh` at work: after `twoUsers` a third user asks; nothing in the answer is older than the question. -/
def thirdUser : List Ev := [.ask 0 1, .take 0, .take 0, .take 0, .take 0, .take 0, .take 0]

example : ∃ a, Answered ((start busy2).run small (twoUsers ++ thirdUser)) 2 a ∧ Since 14 a := by
  have hs : Steady small 1 (twoUsers ++ thirdUser) := by
    refine ⟨by intro v u; simp [twoUsers, thirdUser], ?_, by intro v; simp [twoUsers, thirdUser], .inr (by intro f b; simp [twoUsers, thirdUser])⟩
    intro v h
    have : v = 0 := by simpa [twoUsers, thirdUser] using h
    subst this; decide
  have hq : Quiet ((start busy2).run small twoUsers) 1 := by
    intro m hm
    have : ((start busy2).run small twoUsers).flight = [] := by decide +kernel
    rw [this] at hm; cases hm
  have hn : ((start busy2).run small (twoUsers ++ thirdUser)).answers.map (·.1) = [0, 1, 2] := by decide +kernel
  obtain ⟨p, hp, h2⟩ := List.mem_map.1 (show 2 ∈ ((start busy2).run small (twoUsers ++ thirdUser)).answers.map (·.1) by rw [hn]; decide)
  have ha : Answered ((start busy2).run small (twoUsers ++ thirdUser)) 2 p.2 := by rw [← h2]; exact hp
  refine ⟨p.2, ha, ?_⟩
  have := C57_fresh (q := 2) (v := 0) small_ok hs _ rfl hq (fun h => by cases h) (by decide +kernel) (by unfold Asked; decide +kernel) ha
  have ht : ((start busy2).run small twoUsers).now = 14 := by decide +kernel
  rw [ht] at this
  exact this

/-- The second user asks when core 1 has answered the first. -/
def staleRun : List Ev := [.ask 0 1, .take 0, .take 1, .take 1, .ask 0 1, .take 1, .take 0, .take 2]

/-- With messages of an earlier query on their way an answer can be older than the question: the replies to the
first request are taken for replies to the second. -/
theorem C57_stale_counterexample :
    ∃ (es es' : List Ev) (a : Ans), Steady small 1 (es ++ es') ∧ Asked ((start busy2).run small (es ++ es')) 1 0 1 ∧
      ((start busy2).run small es).asked.length = 1 ∧ Answered ((start busy2).run small (es ++ es')) 1 a ∧ ¬ Since ((start busy2).run small es).now a := by
  refine ⟨staleRun.take 4, staleRun.drop 4,
    .doc 0 1 4 [(.core, .doc 1 1 1 [(.fed, .doc 3 1 1 []), (.fed, .doc 2 1 2 [])]), (.core, .doc 4 1 6 [(.fed, .doc 5 1 6 [])])],
    ⟨by intro v u; simp [staleRun], ?_, by intro v; simp [staleRun], .inr (by intro f b; simp [staleRun])⟩,
    by unfold Asked; decide +kernel, by decide +kernel, ?_, ?_⟩
  · intro v h
    have : v = 0 := by simpa [staleRun] using h
    subst this; decide
  · exact List.mem_cons_of_mem _ (List.mem_cons_self ..)
  · intro h
    cases h with
    | doc _ _ _ _ h1 h2 =>
      have h3 := h2 _ (List.mem_cons_self ..)
      cases h3 with
      | doc _ _ _ _ h4 _ =>
        revert h4
        decide +kernel

end Verif.Query
