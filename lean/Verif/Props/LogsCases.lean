import Verif.Props.LogsProps
/-! Concrete cases for C62. -/
namespace Verif
namespace Logs

/-- a warning and a debug message, with a target that wants both -/
example : (run false true [.levels 3 6, .remote 4 21, .remote 5 3]).out 3 false =
      { level := 3, buffered := true, sentTo := [4, 5], console := true, file := true } ∧
    (run false true [.levels 3 6, .remote 4 21, .remote 5 3]).out 6 false =
      { level := 6, buffered := true, sentTo := [4], file := true } ∧
    (run false true [.levels 3 6, .remote 4 21, .remote 5 3]).out 24 false = {} ∧
    (run false true [.levels 3 6, .remote 4 21, .remote 5 3]).out 24 true =
      { level := 24, buffered := true, console := true, file := true } := by decide +kernel

/-- the hypotheses of `C62_remote` are met: two targets, one of which asks for less, another for more before the levels are set -/
example : NoneRaised [.remote 1 9, .remote 2 0, .remote 1 3, .remote 2 15, .levels 3 3] ∧
    wants 2 [.remote 1 9, .remote 2 0, .remote 1 3, .remote 2 15, .levels 3 3] = some 15 := by
  refine ⟨?_, by decide +kernel⟩
  intro a d l b h
  by_cases hb : ∃ c f, Ev.levels c f ∈ b
  · exact .inr (.inr hb)
  · exfalso
    rcases List.eq_nil_or_concat b with rfl | ⟨b', y, rfl⟩
    · have := List.append_inj' (show [Ev.remote 1 9, .remote 2 0, .remote 1 3, .remote 2 15] ++ [.levels 3 3] = a ++ [.remote d l] from h) rfl
      simp at this
    · have := List.append_inj' (show [Ev.remote 1 9, .remote 2 0, .remote 1 3, .remote 2 15] ++ [.levels 3 3] =
        (a ++ .remote d l :: b') ++ [y] by rw [show [Ev.remote 1 9, .remote 2 0, .remote 1 3, .remote 2 15] ++ [.levels 3 3] =
          [.remote 1 9, .remote 2 0, .remote 1 3, .remote 2 15, .levels 3 3] from rfl, h]; simp) rfl
      apply hb
      have hy := this.2
      simp only [List.cons.injEq, and_true] at hy
      exact ⟨3, 3, by rw [hy]; simp⟩

/-- a federate's message that the core prints: level and targets -/
example : (run false false [.remote 4 21]).out (fed + 15) false =
    { level := 15, buffered := true, sentTo := [4], console := true } := by decide +kernel

/-- the buffer: full, made larger, made smaller, disabled, enabled -/
example : (bufRun 2 [.push 1, .push 2, .push 3]).items = [2, 3] ∧
    (bufRun 2 [.push 1, .push 2, .push 3, .resize 4, .push 4, .push 5, .push 6]).items = [3, 4, 5, 6] ∧
    (bufRun 4 [.push 1, .push 2, .push 3, .resize 2, .resize 4]).items = [2, 3] ∧
    (bufRun 4 [.push 1, .enable false, .push 2, .enable true, .push 3]) = ⟨10, [3]⟩ := by decide +kernel

example : Kept 2 [.push 1] 2 [.push 3, .resize 4, .push 4] ↔ True := by
  have h := (C62_buffer 2 ([.push 1] ++ .push 2 :: [.push 3, .resize 4, .push 4])).2
  obtain ⟨k, hk, hi, hs⟩ := h
  have := hs [.push 1] 2 _ rfl
  have hb : (bufRun 2 ([.push 1] ++ .push 2 :: [.push 3, .resize 4, .push 4])).items = [2, 3, 4] := by decide +kernel
  rw [hb] at hi
  have hl := congrArg List.length hi
  simp [pushed] at hl this
  simp only [iff_true]
  exact this.1 (by omega)

/-- two threads push at the same time -/
example : (concRun 1 [.pushTest 0 7, .pushTest 1 8, .pushRest 1, .pushRest 0]).items = [7] := by decide +kernel

end Logs
end Verif
