import Verif.Lemmas.CmdQueueOrder
/-
Command queue: every event of every history is as it should be.
-/
namespace Verif.CmdQueue

/-- What had happened when thread `t` last began an attempt. -/
def startTail (t : Nat) : List (Ev α) → List (Ev α)
  | [] => []
  | .popStart u :: h => if u = t then h else startTail t h
  | .called _ :: h | .returned _ :: h | .popNone _ :: h | .took _ :: h | .dropped _ :: h
  | .peeked _ :: h | .saidEmpty _ :: h => startTail t h

/-- The claim about an event, given what came before. -/
def EvOk (h : List (Ev α)) : Ev α → Prop
  | .took y => (∀ x, x.prio = y.prio → precedes h x y → gone h x) ∧
      (y.prio = false → ∀ x, x.prio = true → .returned x ∈ h → gone h x) ∧ .called y ∈ h ∧ ¬ gone h y
  | .dropped y => .called y ∈ h ∧ ¬ gone h y
  | .popNone t => ∀ x, .returned x ∈ startTail t h → gone h x
  | .saidEmpty b => b = true → ∀ x, .returned x ∈ h → gone h x
  | .peeked (some x) => .called x ∈ h ∧ ¬ gone h x
  | _ => True

/-- Every event is as it should be. -/
def AllOk : List (Ev α) → Prop
  | [] => True
  | e :: h => EvOk h e ∧ AllOk h

theorem allOk_split {h a b : List (Ev α)} {e : Ev α} (hk : AllOk h) (he : h = a ++ e :: b) : EvOk b e := by
  induction a generalizing h with
  | nil => subst he; exact hk.1
  | cons c a ih => subst he; exact ih hk.2 rfl

theorem startTail_sub {t : Nat} {h : List (Ev α)} {e : Ev α} (he : e ∈ startTail t h) : e ∈ h := by
  induction h with
  | nil => exact he
  | cons c h ih =>
    cases c <;> simp only [startTail] at he
    case popStart u =>
      split at he
      · exact List.mem_cons_of_mem _ he
      · exact List.mem_cons_of_mem _ (ih he)
    all_goals exact List.mem_cons_of_mem _ (ih he)

theorem startTail_dropped (t : Nat) (l : List (Item α)) (h : List (Ev α)) :
    startTail t (l.map Ev.dropped ++ h) = startTail t h := by
  induction l with
  | nil => rfl
  | cons a l ih => exact ih

/-- Threads that found nothing and are on their way out. -/
def atNone : PC α → Bool
  | .popNoneA _ | .popNone _ => true
  | _ => false

@[simp] theorem atNone_noted (p : PC α) : atNone (noted p) = atNone p := by cases p <;> rfl

theorem gone_cons {e : Ev α} {h : List (Ev α)} {x : Item α} (hg : gone h x) : gone (e :: h) x := by
  rcases hg with h1 | h1
  · exact .inl (List.mem_cons_of_mem _ h1)
  · exact .inr (List.mem_cons_of_mem _ h1)

theorem all_empty {s : St α} (hI : Ids s) (h1 : s.push = []) (h2 : s.pull = []) (h3 : s.prio = [])
    {x : Item α} (hx : .returned x ∈ s.hist) : gone s.hist x := by
  rcases mem_All.mp (hI.ret x hx) with h | h | h | h
  · exact h
  · rw [h2] at h; cases h
  · rw [h1] at h; cases h
  · rw [h3] at h; cases h

structure Evs (s : St α) : Prop where
  ok : AllOk s.hist
  none : ∀ u, atNone (s.pcs u) = true → ∀ x, .returned x ∈ startTail u s.hist → gone s.hist x

theorem none_step {s s' : St α} {t : Nat} (hS : Seen s) (hI : Ids s) (h : Evs s) (st : Step s t s') :
    ∀ u, atNone (s'.pcs u) = true → ∀ x, .returned x ∈ startTail u s'.hist → gone s'.hist x := by
  intro u hu x hx
  have old : atNone (s.pcs u) = true → startTail u s'.hist = startTail u s.hist → gone s'.hist x := by
    intro h1 h2
    rw [h2] at hx
    exact gone_step st (h.none u h1 x hx)
  by_cases hut : u = t
  · subst hut
    have hq := hS.noPrio u
    have hp := hS.noPull u
    cases st <;> simp only [upd, if_true, atNone] at hu <;> first | (cases hu; done) | skip
    · rename_i hpc h0
      rw [hpc] at hq hp
      exact all_empty hI h0 (hp rfl) (hq rfl) (startTail_sub hx)
    · rename_i hpc
      exact old (by rw [hpc]; rfl) rfl
  · have hu' : atNone (s.pcs u) = true := by
      rcases other_step st hut with h1 | h1 <;> rw [h1] at hu
      · exact hu
      · rwa [atNone_noted] at hu
    apply old hu'
    cases st <;> simp_all [startTail, startTail_dropped] <;> grind [startTail_dropped, List.map_append]

/-- Taking the first of the line. -/
theorem took_ok {s : St α} (hI : Ids s) (hO : Order s) {i : Item α} {l : List (Item α)}
    (hp : s.prio = []) (hl : s.pull = l ++ [i]) : EvOk s.hist (.took i) := by
  have hi : i ∈ s.pull := by rw [hl]; simp
  have hki := hI.kindA i (.inl hi)
  have hmem : i ∈ All s := mem_All.mpr (by simp [hi])
  have hli : line s = i :: (l.reverse ++ s.push) := by simp [line, hl]
  have hn := hI.nd
  have hng : ¬ gone s.hist i := by
    intro hg
    rw [All, List.nodup_append] at hn
    exact hn.2.2 i (mem_goneList.mpr hg) i (List.mem_append_left _ hi) rfl
  refine ⟨?_, ?_, hI.allCalled i hmem, hng⟩
  · intro x hx hpx
    rcases hO.line x i (by rw [hli]; simp) (hx.trans hki) hpx with h | h
    · exact h
    · rw [hli] at h
      refine absurd h (before_head ?_)
      have h2 : (s.pull ++ (s.push ++ s.prio)).Nodup := (List.nodup_append.mp hn).2.1
      rw [← List.append_assoc] at h2
      have h3 := (List.nodup_append.mp h2).1
      rw [← hli, line]
      exact (List.Perm.append_right _ (List.reverse_perm _)).nodup_iff.mpr h3
  · intro _ x hx hr
    rcases hI.where_ hr with h | ⟨h, _⟩ | ⟨_, h⟩
    · exact h
    · rw [hx] at h; cases h
    · rw [hp] at h; cases h

/-- Taking the front of the priority channel. -/
theorem tookPrio_ok {s : St α} (hI : Ids s) (hO : Order s) {i : Item α} {l : List (Item α)}
    (hp : s.prio = i :: l) : EvOk s.hist (.took i) := by
  have hi : i ∈ s.prio := by rw [hp]; simp
  have hki := hI.kindP i hi
  have hmem : i ∈ All s := mem_All.mpr (by simp [hi])
  have hn := hI.nd
  have hng : ¬ gone s.hist i := by
    intro hg
    rw [All, List.nodup_append] at hn
    exact hn.2.2 i (mem_goneList.mpr hg) i (by simp [hi]) rfl
  refine ⟨?_, fun h => absurd (hki.symm.trans h) (by decide), hI.allCalled i hmem, hng⟩
  intro x hx hpx
  rcases hO.prio x i hi (hx.trans hki) hpx with h | h
  · exact h
  · rw [hp] at h
    refine absurd h (before_head ?_)
    have h2 : (s.pull ++ (s.push ++ s.prio)).Nodup := (List.nodup_append.mp hn).2.1
    rw [← List.append_assoc] at h2
    rw [← hp]
    exact (List.nodup_append.mp h2).2.1

theorem dropped_ok {l : List (Item α)} {h : List (Ev α)} (hn : (l ++ goneList h).Nodup)
    (hc : ∀ x ∈ l, .called x ∈ h) (hk : AllOk h) : AllOk (l.map Ev.dropped ++ h) := by
  induction l with
  | nil => exact hk
  | cons a l ih =>
    rw [List.cons_append, List.nodup_cons] at hn
    refine ⟨⟨?_, ?_⟩, ih hn.2 (fun x hx => hc x (List.mem_cons_of_mem _ hx))⟩
    · exact List.mem_append_right _ (hc a (by simp))
    · show ¬ gone (l.map Ev.dropped ++ h) a
      rw [← mem_goneList, goneList_dropped]
      exact hn.1

theorem clear_ok {s : St α} (hI : Ids s) (h : AllOk s.hist) :
    AllOk ((s.pull ++ s.push ++ s.prio).map Ev.dropped ++ s.hist) := by
  refine dropped_ok ?_ ?_ h
  · refine (List.Perm.nodup_iff ?_).mpr hI.nd
    rw [All]
    refine List.perm_append_comm.trans ?_
    simp
  · intro x hx
    refine hI.allCalled x (mem_All.mpr ?_)
    simp only [List.mem_append] at hx
    rcases hx with (h | h) | h <;> simp [h]

theorem saidEmpty_ok {s : St α} (hS : Seen s) (hI : Ids s) : EvOk s.hist (.saidEmpty s.flag) := by
  intro hf x hr
  obtain ⟨h1, h2⟩ := hS.empty hf
  by_cases hp : s.prio = []
  · exact all_empty hI h1 h2 hp hr
  · obtain ⟨u, i, hu, hi⟩ := hS.emptyP hf hp
    rcases hI.where_ hr with h | ⟨_, h⟩ | ⟨_, h⟩
    · exact h
    · rw [mem_line, h1, h2] at h
      rcases h with h | h <;> cases h
    · rw [hi] at h
      have hx : x = i := by simpa using h
      subst hx
      have hh : held (s.pcs u) = some x := by
        revert hu; cases s.pcs u <;> simp [atPrioCas, held]
      exact absurd hr (hI.heldNew u x hh)

theorem peek_ok {s : St α} (hI : Ids s) :
    EvOk s.hist (.peeked (if s.prio ≠ [] then s.prio.head? else s.pull.getLast?)) := by
  have key : ∀ x, (x ∈ s.prio ∨ x ∈ s.pull) → Ev.called x ∈ s.hist ∧ ¬ gone s.hist x := by
    intro x hx
    refine ⟨hI.allCalled x (mem_All.mpr (by rcases hx with h | h <;> simp [h])), ?_⟩
    intro hg
    have hn := hI.nd
    rw [All, List.nodup_append] at hn
    exact hn.2.2 x (mem_goneList.mpr hg) x (by rcases hx with h | h <;> simp [h]) rfl
  cases hr : (if s.prio ≠ [] then s.prio.head? else s.pull.getLast?) with
  | none => exact trivial
  | some x =>
    refine key x ?_
    split at hr
    · exact .inl (List.mem_of_head? hr)
    · exact .inr (List.mem_of_getLast? hr)

theorem ok_step {s s' : St α} {t : Nat} (hS : Seen s) (hI : Ids s) (hO : Order s) (h : Evs s)
    (st : Step s t s') : AllOk s'.hist := by
  have hk := h.ok
  have hq := hS.noPrio t
  cases st
  case popPrio m i l hp h1 => exact ⟨tookPrio_ok hI hO h1, hk⟩
  case popOne m i l hp h0 h1 h2 => exact ⟨took_ok hI hO h0 h1, hk⟩
  case popMore m i l hp h0 h1 h2 => exact ⟨took_ok hI hO h0 h1, hk⟩
  case takeOne m i l hp h1 h2 => exact ⟨took_ok hI hO (hq (by rw [hp]; rfl)) h1, hk⟩
  case takeMore m i l hp h1 h2 => exact ⟨took_ok hI hO (hq (by rw [hp]; rfl)) h1, hk⟩
  case waitPrio m i l hp h1 => exact ⟨tookPrio_ok hI hO h1, hk⟩
  case waitTake m i l hp h0 h1 => exact ⟨took_ok hI hO h0 h1, hk⟩
  case wakePrio m b i l hp h1 => exact ⟨tookPrio_ok hI hO h1, hk⟩
  case wakeTake m b i l hp h0 h1 => exact ⟨took_ok hI hO h0 h1, hk⟩
  case popNone m hp hm => exact ⟨h.none t (by rw [hp]; rfl), hk⟩
  case popWait m hp hm => exact ⟨h.none t (by rw [hp]; rfl), hk⟩
  case peekLook hp => exact ⟨peek_ok hI, hk⟩
  case emptyLook hp => exact ⟨saidEmpty_ok hS hI, hk⟩
  case clearLook hp => exact clear_ok hI hk
  all_goals first | exact hk | exact ⟨trivial, hk⟩

/-- Everything together. -/
structure Inv (s : St α) : Prop where
  locks : Locks s
  seen : Seen s
  ids : Ids s
  order : Order s
  evs : Evs s

theorem inv_init : Inv (init : St α) := by
  refine ⟨⟨?_, ?_⟩, ⟨?_, ?_, ?_, ?_, ?_, ?_, ?_⟩, ⟨?_, ?_, ?_, ?_, ?_, ?_, ?_, ?_, ?_, ?_, ?_, ?_, ?_⟩,
    ⟨?_, ?_, ?_⟩, ⟨?_, ?_⟩⟩ <;>
    simp [init, holdsPush, holdsPull, seenNoPrio, seenNoPull, seenPull, seenPrio, seenDown, All, goneList, pend, held,
      kindOk, line, com, AllOk, atNone]

theorem inv_step {s s' : St α} {t : Nat} (h : Inv s) (st : Step s t s') : Inv s' :=
  ⟨locks_step h.locks st, seen_step h.locks h.seen st, ids_step h.ids st,
    order_step h.seen h.ids h.order st, ⟨ok_step h.seen h.ids h.order h.evs st,
      none_step h.seen h.ids h.evs st⟩⟩

theorem reach_inv {s : St α} (h : Reach s) : Inv s := by
  obtain ⟨tr, h⟩ := h
  exact runs_ind (fun _ _ _ h st => inv_step h st) inv_init h

end Verif.CmdQueue
