import Verif.Props.RealTimeProps
/-! Concrete cases for C63. -/
namespace Verif
namespace RealTime

/-- granted by the coordinator ahead of the clock: the call sleeps until `lead` (2 ms) before its time -/
example : (run ⟨100, none, 2000000⟩ [.request 50000000, .process, .coord 50000000, .process]).rets =
    [⟨50000000, 50000000, 48000100, false⟩] := by decide +kernel

/-- less than five milliseconds ahead: it does not sleep -/
example : (run ⟨100, none, 0⟩ [.request 4000000, .process, .coord 4000000, .process]).rets =
    [⟨4000000, 4000000, 100, false⟩] := by decide +kernel

/-- nobody answers: forced, one millisecond after its time; the hypotheses of `C63_not_late`, `C63_forced` and `C63_forced_asked`
are met -/
example : (run ⟨100, some 1000000, 0⟩ [.request 50000000, .process, .tick 51000000]).call = some 50000000 ∧
    (run ⟨100, some 1000000, 0⟩ [.request 50000000, .process, .tick 50999999, .fire, .process]).rets = [] ∧
    (run ⟨100, some 1000000, 0⟩ [.request 50000000, .process, .tick 51000000, .fire, .process]).rets =
      [⟨50000000, 50000000, 51000100, true⟩] := by decide +kernel

example : Clean ⟨100, some 1000000, 0⟩ [.request 50000000, .process, .tick 51000000, .fire, .process] := by
  intro a n b h t
  have : a = [] := by
    cases a with
    | nil => rfl
    | cons x a =>
      exfalso
      simp only [List.cons_append, List.cons.injEq] at h
      obtain ⟨-, h⟩ := h
      have hm : Ev.request n ∈ [Ev.process, .tick 51000000, .fire, .process] := by rw [h]; simp
      simp at hm
  subst this
  simp [run]

/-- the clock is already past the time and the lag: forced at once -/
example : (run ⟨100, some 1000000, 0⟩ [.tick 90000000, .request 50000000, .process, .process]).rets =
    [⟨50000000, 50000000, 90000100, true⟩] := by decide +kernel

end RealTime
end Verif
