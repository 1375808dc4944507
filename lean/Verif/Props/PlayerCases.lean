import Verif.Props.PlayerProps
/-!
# C68: cases
-/
namespace Verif.Player
open Verif

/-- A federate without restrictions: granted what it asks for, or the next nanosecond. -/
def plainGrant (c t g : Time) : Prop := g = max t (c + 1)
/-- A federate with a period of four. -/
def everyFour (c t g : Time) : Prop := g = max (4 * ((t + 3) / 4)) (4 * (c / 4) + 4)

theorem plainGrant_ok : Forward plainGrant ∧ NoOvershoot plainGrant ∧ Exact plainGrant := by
  refine ⟨fun c t g h => ?_, fun c t g h h' => ?_, fun c t g h h' => ?_⟩ <;> unfold plainGrant at h <;> omega

/-- A federate that may be granted any time up to the one it asks for meets the hypotheses of `C68_complete`, and is not exact. -/
def interrupted (c t g : Time) : Prop := c < g ∧ (c < t → g ≤ t)
example : Forward interrupted ∧ NoOvershoot interrupted ∧ ¬ Exact interrupted := by
  refine ⟨fun c t g h => h.1, fun c t g h => h.2, fun h => ?_⟩
  have := h 0 5 3 (by unfold interrupted; omega) (by omega)
  omega

def a0 : Point := { time := 0, name := "p", value := "a" }
def a5 : Point := { time := 5, name := "p", value := "b" }
def a5' : Point := { time := 5, iteration := 2, name := "q", value := "c" }

/-- A call of `runTo` with an iteration comes to its end, with everything sent at its time. -/
example : ∃ s, Run plainGrant [a5', a0, a5] [] s 7 ∧ Finished 7 s ∧
    s.out = [.value a0 (some 0) 0, .value a5 (some 5) 0, .value a5' (some 5) 2] ∧ s.cur = 7 := by
  have r0 : Run plainGrant [a5', a0, a5] [] (begin_ [a0, a5, a5'] []) 7 :=
    .start [a0, a5, a5'] [] 7 (by decide) (by simp [pointLe, a0, a5, a5']) (by simp) (by simp) (by decide)
  have r1 := Run.step _ _ _ r0 (.ask _ 5 5 (by decide +kernel) (by unfold plainGrant; decide +kernel))
  have r2 := Run.step _ _ _ r1 (.iterate _ 5 (by decide +kernel))
  have r3 := Run.step _ _ _ r2 (.iterate _ 5 (by decide +kernel))
  have r4 := Run.step _ _ _ r3 (.wait _ 7 (by decide +kernel) (by decide +kernel) (by unfold plainGrant; decide +kernel))
  exact ⟨_, r4, ⟨by decide +kernel, by decide +kernel⟩, by decide +kernel, by decide +kernel⟩

/-- `PlainInput` is met by input with iterations and by input with messages. -/
example : PlainInput [a5', a0, a5] [] ∧ PlainInput [a0, a5] [{ sendTime := 3, source := "e", dest := "f", data := "x" }] :=
  ⟨⟨by simp [a0, a5, a5'], .inl rfl⟩, by simp [a0, a5], .inr (by simp [a0, a5])⟩

def m10 : Msg := { sendTime := 10, source := "e", dest := "f", data := "x" }

/-- C68 (counterexample): with a message still to send, the iteration of a value is forgotten and the value comes at a later time. -/
theorem C68_message_hides_iteration : ∃ s, Run plainGrant [a5'] [m10] s 20 ∧ Out.value a5' (some 6) 0 ∈ s.out := by
  have r0 : Run plainGrant [a5'] [m10] (begin_ [a5'] [m10]) 20 :=
    .start [a5'] [m10] 20 (by decide) (by simp) (by decide) (by simp) (by decide)
  have r1 := Run.step _ _ _ r0 (.ask _ 5 5 (by decide +kernel) (by unfold plainGrant; decide +kernel))
  have r2 := Run.step _ _ _ r1 (.ask _ 5 6 (by decide +kernel) (by unfold plainGrant; decide +kernel))
  exact ⟨_, r2, by decide +kernel⟩

def a3 : Point := { time := 3, name := "p", value := "d" }

/-- C68 (counterexample): a federate with a period can be granted a time past the stop time; what was due in between is never sent. -/
theorem C68_overshoot_loses : ∃ s, Run everyFour [a3] [] s 4 ∧ Finished 4 s ∧ s.out = [] ∧ s.pts = [] := by
  have r0 : Run everyFour [a3] [] (begin_ [a3] []) 1 :=
    .start [a3] [] 1 (by decide) (by simp) (by decide) (by simp) (by decide)
  have r1 := Run.step _ _ _ r0 (.wait _ 4 (by decide +kernel) (by decide +kernel) (by unfold everyFour; decide +kernel))
  have r2 := Run.again _ _ 4 r1 ⟨by decide +kernel, by decide +kernel⟩ (by decide)
  exact ⟨_, r2, ⟨by decide +kernel, by decide +kernel⟩, by decide +kernel, by decide +kernel⟩

def neg : Point := { time := 1, iteration := -1, name := "p", value := "e" }

theorem neg_leave {stop : Time} {s : St} (hn : next stop s = .leave) (i2 : s.pts = [neg]) (i3 : s.msgs = []) : stop < 1 := by
  unfold next at hn
  have hm1 : min maxVal neg.time = 1 := by decide
  have hm : ¬ (1 : Int) = maxVal := by decide
  simp only [i2, i3, List.head?_cons, List.head?_nil, hm1] at hn
  rw [if_neg hm] at hn
  split at hn
  · rename_i h; exact h
  · split at hn <;> cases hn

/-- C68 (counterexample): a value with a negative iteration keeps the player iterating for ever, and nothing is sent. -/
theorem C68_negative_iteration {s : St} {stop : Time} (h : Run plainGrant [neg] [] s stop) :
    s.out = [] ∧ (1 ≤ stop → ¬ Finished stop s) := by
  have inv : s.out = [] ∧ s.pts = [neg] ∧ s.msgs = [] ∧ 0 ≤ s.iter ∧ (s.cur = 0 ∨ (s.cur = 1 ∧ 1 ≤ stop)) := by
    induction h with
    | start qs ns stop h1 _ h3 _ _ =>
      rw [List.perm_singleton] at h1
      rw [List.perm_nil] at h3
      subst h1 h3
      exact ⟨by decide +kernel, by decide +kernel, by decide +kernel, by decide +kernel, .inl (by decide +kernel)⟩
    | step s s' stop _ hs ih =>
      obtain ⟨i1, i2, i3, i4, i5⟩ := ih
      obtain ⟨sp, sm, sc, si, so⟩ := s
      dsimp only at i1 i2 i3 i4 i5
      subst i1 i2 i3
      cases hs with
      | ask t g h1 h2 =>
        obtain ⟨b1, _, _, _, hx⟩ := next_ask h1
        rcases hx with ⟨p, hp, rfl, hi⟩ | ⟨m, hm, _⟩
        · rw [List.mem_singleton] at hp; subst hp
          have hc : sc < 1 := by
            rcases hi rfl with h | h
            · exact absurd h (by decide)
            · exact h
          have hg : g = 1 := by
            have := plainGrant_ok.2.2 _ _ _ h2 hc
            exact this
          subst hg
          refine ⟨?_, ?_, ?_, Int.le_refl _, .inr ⟨rfl, b1⟩⟩ <;> simp [send, neg]
        · cases hm
      | iterate t h1 =>
        obtain ⟨_, _, _, p, hp, rfl, _⟩ := next_iterate h1
        cases hp
        have hk : ¬ (-1 : Int) = si + 1 := by omega
        refine ⟨?_, ?_, ?_, by change (0 : Int) ≤ si + 1; omega, i5⟩ <;> simp [send, neg, hk]
      | wait g h1 h2 h3 =>
        exfalso
        have h2 : sc < stop := h2
        have := neg_leave h1 rfl rfl
        omega
    | again s stop stop' _ hfin _ ih =>
      obtain ⟨i1, i2, i3, i4, i5⟩ := ih
      have hs : ¬ 1 ≤ stop := by
        intro hle
        have := neg_leave hfin.1 i2 i3
        omega
      have hc : s.cur = 0 := by
        rcases i5 with h | h
        · exact h
        · exact absurd h.2 hs
      refine ⟨i1, ?_, ?_, Int.le_refl _, .inl hc⟩
      · simp [reenter, i2, hc, neg]
      · simp [reenter, i3]
  refine ⟨inv.1, fun h1 hf => ?_⟩
  obtain ⟨_, i2, i3, _, _⟩ := inv
  have := neg_leave hf.1 i2 i3
  omega

end Verif.Player
