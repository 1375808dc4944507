import Verif.Props.ExecEntry
import Verif.Props.MinTime
/-! # C07: entry into executing mode of a federate that waits for the current time -/
namespace Verif
namespace EntryWait
open Fed TC Deps

/-- Another federate the coordinator waits for is past the entry: it has asked for a time (without iteration), has been granted
a positive time, or has failed. -/
def PastEntry (d : DepInfo) : Prop :=
  d.state = .timeReq ∨ d.state = .error ∨ (d.state = .granted ∧ 0 < d.next)

theorem allPast_iff (ds : Deps) : ds.allPastExec false = true ↔
    ∀ d ∈ ds, d.dependency = true → d.connection ≠ .self → PastEntry d := by
  unfold allPastExec PastEntry
  simp only [List.all_eq_true, Bool.false_eq_true, if_false]
  apply forall_congr'; intro d
  apply forall_congr'; intro _
  cases d.dependency <;> cases d.state <;> by_cases h : d.connection = .self <;> simp [TimeState.rank, h]

/-- **C07** (waiting entry, exactly).  A federate that waits for the current time and asks for entry without iteration is let in
exactly if no barrier is in the way, all others it waits for are past the entry, and the time they allow is positive. -/
theorem C07_waiting_entry (c : TC) (g : FedId) (hi : c.iterating = .noIterations) (hw : c.info.waitForCurrent = true) :
    (c.checkExecEntry g).2 = .nextStep ↔ 0 < c.block ∧
      (∀ d ∈ c.deps, d.dependency = true → d.connection ≠ .self → PastEntry d) ∧
      0 < (minTimeTotal c.deps (c.info.restrictive || c.globalTime) c.self c.self c.seq).next := by
  rw [← allPast_iff]
  unfold checkExecEntry readyForExecEntry
  simp only [hi, hw, bne_self_eq_false, Bool.false_eq_true, if_false, if_true]
  split
  · rename_i h; simp; omega
  · rename_i h
    split
    · rename_i h'; simp at h'; simp [h']
    · rename_i h'
      simp at h'
      unfold execDecision
      simp only [hi, hw, Bool.not_true, Bool.false_eq_true, if_false]
      split
      · rename_i h2; simp [h']; omega
      · rename_i h2; simp [h']; omega

/-- **C07** (waiting entry, the others have moved on).  When it is let in, every other federate it waits for (and whose own minimum is not the
entering federate itself) has announced a next time or next event later than the start; under the restrictive policy a next time. -/
theorem C07_others_moved_on (c : TC) (g : FedId) (hi : c.iterating = .noIterations) (hw : c.info.waitForCurrent = true)
    (hself : ∀ d ∈ c.deps, d.connection = .self → d.fedID = c.self)
    (h : (c.checkExecEntry g).2 = .nextStep) :
    ∀ d ∈ c.deps, d.dependency = true → d.fedID ≠ c.self → ¬ (FedId.isValid c.self = true ∧ d.minFedActual = c.self) →
      0 < max d.next d.Te ∧ (c.info.restrictive = true → 0 < d.next) := by
  obtain ⟨_, h1, h2⟩ := (C07_waiting_entry c g hi hw).mp h
  have hx : ∀ d ∈ c.deps, MinTime.Member .total c.self c.self d → MinTime.Executing d := by
    intro d hd hm
    have := h1 d hd hm.1 (fun hc => hm.2.1 (hself d hd hc))
    unfold MinTime.Executing
    rcases this with h | h | h <;> simp [h]
  obtain ⟨ms, m1, _, m3, m4, _, _⟩ := MinTime.C13_true_minimum .total c.deps (c.info.restrictive || c.globalTime) c.self c.self c.seq hx
  intro d hd hdep hne hmf
  have hmem : d ∈ ms := (m1 d).mpr ⟨hd, hdep, hne, hmf, trivial⟩
  have h4 := m4 d hmem
  change (minTimeTotal c.deps (c.info.restrictive || c.globalTime) c.self c.self c.seq).next ≤ _ at h4
  refine ⟨by omega, fun hr => ?_⟩
  have h3 := (m3 (by rw [hr]; rfl)).2 d.next (List.mem_cons_of_mem _ (List.mem_map_of_mem hmem))
  change (minTimeTotal c.deps (c.info.restrictive || c.globalTime) c.self c.self c.seq).next ≤ _ at h3
  omega

/-- an instance: the federate waits for 8, which has been granted 3 -/
example : let c : TC := { Grants.demo.tc with
      iterating := .noIterations, info := { Grants.demo.tc.info with waitForCurrent := true }
      deps := [{ DepInfo.ofId 8 with dependency := true, state := .granted, next := 3, Te := 3, minDe := 3 }] }
    c.iterating = .noIterations ∧ c.info.waitForCurrent = true ∧ (∀ d ∈ c.deps, d.connection = .self → d.fedID = c.self) ∧
    (c.checkExecEntry 8).2 = .nextStep := by
  decide +kernel

end EntryWait
end Verif
