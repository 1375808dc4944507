import Verif.Lemmas.FilterHold
/-! The list of expected answers and its minimum (FilterFederate.cpp:502-533). -/
namespace Verif.Filt

/-- the announced minimum is not after any expected answer -/
def FF.Early (s : FF) : Prop := ∀ p ∈ s.returns, s.minReturn ≤ p.2

theorem minFold_le (l : List (Int × Int)) : ∀ r : Int,
    l.foldl (fun r p => if p.2 < r then p.2 else r) r ≤ r ∧
      ∀ p ∈ l, l.foldl (fun r p => if p.2 < r then p.2 else r) r ≤ p.2 := by
  induction l with
  | nil => intro r; simp
  | cons a t ih =>
    intro r
    simp only [List.foldl_cons]
    obtain ⟨h1, h2⟩ := ih (if a.2 < r then a.2 else r)
    have h3 : (if a.2 < r then a.2 else r) ≤ r ∧ (if a.2 < r then a.2 else r) ≤ a.2 := by
      split <;> constructor <;> omega
    refine ⟨Int.le_trans h1 h3.1, fun p hp => ?_⟩
    rcases List.mem_cons.mp hp with rfl | hp
    · exact Int.le_trans h1 h3.2
    · exact h2 p hp

theorem early_add {s : FF} (h : s.Early) (id t : Int) : (s.addReturn id t).Early := by
  intro p hp
  unfold FF.addReturn at hp ⊢
  dsimp only at hp ⊢
  rcases List.mem_append.mp hp with hp | hp
  · have := h p hp
    split <;> omega
  · rw [List.mem_singleton] at hp
    subst hp
    dsimp only
    split <;> omega

theorem early_clear {s : FF} (h : s.Early) (id : Int) : (s.clearReturn id).Early := by
  unfold FF.clearReturn
  split
  · exact h
  · rename_i p rest he
    split
    · intro q hq
      dsimp only at hq ⊢
      split
      · exact (minFold_le rest bigTime).2 q hq
      · exact h q (by rw [he]; exact List.mem_cons_of_mem _ hq)
    · exact h

theorem early_mark {s : FF} (h : s.Early) (fid pid t : Int) : (s.mark fid pid t).1.Early :=
  early_add (s := { s with ongoing := if (fid, pid) ∈ s.ongoing then s.ongoing else s.ongoing ++ [(fid, pid)] }) h pid t
theorem early_markDest {s : FF} (h : s.Early) (fid pid t : Int) : (s.markDest fid pid t).1.Early :=
  early_add (s := { s with ongoingDest := if (fid, pid) ∈ s.ongoingDest then s.ongoingDest else s.ongoingDest ++ [(fid, pid)] }) h pid t
theorem early_unmark {s : FF} (h : s.Early) (fid pid : Int) : (s.unmark fid pid).1.Early :=
  early_clear (s := { s with ongoing := s.ongoing.filter (fun p => p ≠ (fid, pid)) }) h pid
theorem early_unmarkDest {s : FF} (h : s.Early) (fid pid : Int) : (s.unmarkDest fid pid).1.Early :=
  early_clear (s := { s with ongoingDest := s.ongoingDest.filter (fun p => p ≠ (fid, pid)) }) h pid

theorem early_walk {s : FF} (h : s.Early) (fid : Int) (n : Nat) (fs : List FInfo) :
    ∀ ii c, (s.walk fid n fs ii c).1.Early := by
  induction fs with
  | nil => intro ii c; exact h
  | cons f fs ih =>
    intro ii c
    rw [FF.walk]
    split
    · exact ih ii c
    · dsimp only
      split
      · exact ih _ _
      · split
        · exact h
        · split
          · exact h
          · split
            · exact early_mark (s := { s with counter := s.counter + 1 }) h _ _ _
            · exact h

theorem early_resume {s : FF} (h : s.Early) (fid hd : Int) (n : Nat) (fs : List FInfo) :
    ∀ ii c, (s.resume fid hd n fs ii c).1.Early := by
  induction fs with
  | nil => intro ii c; exact h
  | cons f fs ih =>
    intro ii c
    rw [FF.resume]
    split
    · exact ih _ c
    · dsimp only
      split
      · exact ih _ _
      · split
        · exact h
        · split
          · exact h
          · split
            · exact early_mark (s := { s with counter := s.counter + 1 }) h _ _ _
            · exact h

theorem early_filterReturn {s : FF} (h : s.Early) (c : Cmd) : (s.filterReturn c).1.Early := by
  unfold FF.filterReturn
  split
  · exact h
  · split
    · split
      · exact early_unmark h _ _
      · dsimp only
        exact early_unmark (early_resume h _ _ _ _ _ _) _ _
    · exact h

theorem early_destReturn {s : FF} (h : s.Early) (c : Cmd) : (s.destReturn c).1.Early := by
  unfold FF.destReturn
  split
  · exact h
  · split
    · split
      · exact early_unmarkDest h _ _
      · dsimp only
        exact early_unmarkDest h _ _
    · exact h

theorem early_destProcess {s : FF} (h : s.Early) (e : Ept) (hd : Int) (c : Cmd) : (s.destProcess e hd c).1.Early := by
  unfold FF.destProcess
  repeat' split
  all_goals first
    | exact h
    | exact early_markDest (s := { s with counter := s.counter + 1 }) h _ _ _

theorem effects_keep_ff (es : List Eff) : ∀ y : Sys, (y.effects es).ff = y.ff := by
  induction es with
  | nil => intro y; rfl
  | cons e es ih =>
    intro y
    show ((y.effect e).effects es).ff = _
    rw [ih, (effect_ff _ _).1]

theorem early_step {y : Sys} (h : y.ff.Early) (ev : Ev) : (y.step ev).ff.Early := by
  cases ev with
  | post hd m dst =>
    simp only [Sys.step, Sys.post]
    split
    · exact h
    · rename_i e he
      have hp : ∀ c, (y.ff.process hd c).1.Early := by
        intro c; unfold FF.process; split
        · exact h
        · exact early_walk h _ _ _ _ _
      split
      · rw [effects_keep_ff]; exact hp _
      · rw [(effect_ff _ _).1, effects_keep_ff]; exact hp _
  | home j =>
    simp only [Sys.step]
    split
    · split
      · rw [effects_keep_ff]; exact h
      · exact h
    · exact h
  | back j =>
    simp only [Sys.step]
    split
    · split
      · split
        · rw [effects_keep_ff]; exact early_filterReturn h _
        · exact h
      · split
        · split
          · rw [effects_keep_ff]; exact early_destReturn h _
          · exact h
        · exact h
    · exact h
  | arrive hd m dst =>
    simp only [Sys.step, Sys.arrive]
    split
    · exact h
    · split
      · show (Sys.effects _ _).ff.Early
        rw [effects_keep_ff]; exact early_destProcess h _ _ _
      · rw [effects_keep_ff]; exact early_destProcess h _ _ _
  | time fid x =>
    simp only [Sys.step]
    split <;> exact h

theorem early_run (es : List Ev) : ∀ {y : Sys}, y.ff.Early → (y.run es).ff.Early := by
  induction es with
  | nil => intro y h; exact h
  | cons e es ih => intro y h; exact ih (early_step h e)

end Verif.Filt
