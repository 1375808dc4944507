import Verif.Lemmas.Entry
import Verif.Lemmas.FedRun
import Verif.Lemmas.MinTime
/-! A grant is limited by each entry of the dependency table. -/
namespace Verif
namespace Deps

theorem foldImpl_bound (ig : FedId) (c : Int) (x : Time) (y : Time) (hx : 0 ≤ x) (hy : 0 ≤ y) (l : Deps) : ∀ m : TimeData,
    (m.next ≤ x ∧ m.Te ≤ y) ∨ (∃ d ∈ l, d.fedID ≠ ig ∧ executing d = true ∧ d.next ≤ x ∧ d.Te ≤ y) →
    (l.foldl (minTimeImpl ig c) m).next ≤ x ∧ (l.foldl (minTimeImpl ig c) m).Te ≤ y := by
  have key : ∀ m d, m.next ≤ x → m.Te ≤ y → (minTimeImpl ig c m d).next ≤ x ∧ (minTimeImpl ig c m d).Te ≤ y := by
    intro m d h1 h2
    by_cases hd : executing d
    · by_cases hi : d.fedID = ig
      · unfold minTimeImpl
        have h0 : ¬ d.state.rank < TimeState.granted.rank := by simp [executing] at hd; omega
        rw [if_neg h0, if_pos hi]
        split <;> exact ⟨h1, h2⟩
      · obtain ⟨a, b, _⟩ := minTimeImpl_exec ig c m d hd hi
        rw [a, b]; omega
    · unfold minTimeImpl
      have h0 : d.state.rank < TimeState.granted.rank := by simp [executing] at hd; omega
      rw [if_pos h0]
      split
      · exact ⟨h1, h2⟩
      · obtain ⟨a, b, _⟩ := minTimeExec_fields m d
        rw [a, b]; exact ⟨by show (-1 : Int) ≤ x; omega, hy⟩
  induction l with
  | nil => intro m h; rcases h with h | ⟨d, hd, _⟩; exact h; cases hd
  | cons d l ih =>
    intro m h
    rw [List.foldl_cons]
    apply ih
    rcases h with h | ⟨e, he, h1, h2, h3, h4⟩
    · exact Or.inl (key m d h.1 h.2)
    · rcases List.mem_cons.1 he with rfl | he
      · left
        obtain ⟨a, b, _⟩ := minTimeImpl_exec ig c m e h2 h1
        rw [a, b]; omega
      · exact Or.inr ⟨e, he, h1, h2, h3, h4⟩

/-- one executing dependency limits the total -/
theorem total_le {ds : Deps} {d : DepInfo} (hd : d ∈ ds) (hdep : d.dependency = true) (hg : d.fedID ≠ invalidFed)
    (he : executing d = true) (hn : 0 ≤ d.next) (r : Bool) (c : Int) :
    (minTimeTotal ds r invalidFed invalidFed c).next ≤ if r then d.next else max d.next d.Te := by
  rw [minTimeTotal_eq]
  have hv : FedId.isValid invalidFed = false := by decide
  have hm : d ∈ totalParts ds invalidFed := by
    unfold totalParts; rw [List.mem_filter]; exact ⟨hd, by simp [hdep, hv]⟩
  obtain ⟨h1, h2⟩ := foldImpl_bound invalidFed c d.next (max d.next d.Te) hn (by omega) (totalParts ds invalidFed)
    (TimeData.ofStart maxVal .error) (Or.inr ⟨d, hm, hg, he, Int.le_refl _, by omega⟩)
  generalize (totalParts ds invalidFed).foldl (minTimeImpl invalidFed c) (TimeData.ofStart maxVal .error) = m at h1 h2 ⊢
  unfold minTimeInit
  split
  · show (-1 : Int) ≤ _; split <;> omega
  · rw [(minTimeFinish_fields m r).2.2.2]
    split <;> omega

/-- a dependency that has not entered executing mode holds the total at the initialization time -/
theorem total_init {ds : Deps} {d : DepInfo} (hd : d ∈ ds) (hdep : d.dependency = true) (hg : d.fedID ≠ invalidFed)
    (he : executing d = false) (hn : ∀ e ∈ ds, e.dependency = true → executing e = true → 0 ≤ e.next) (r : Bool) (c : Int) :
    (minTimeTotal ds r invalidFed invalidFed c).next = initializationTime := by
  rw [minTimeTotal_eq]
  have hv : FedId.isValid invalidFed = false := by decide
  have hm : d ∈ totalParts ds invalidFed := by
    unfold totalParts; rw [List.mem_filter]; exact ⟨hd, by simp [hdep, hv]⟩
  have := fold_not_ready invalidFed c (totalParts ds invalidFed) (fun e he' _ hx => by
    unfold totalParts at he'
    rw [List.mem_filter] at he'
    simp only [Bool.and_eq_true] at he'
    exact hn e he'.1 he'.2.1 hx) (TimeData.ofStart maxVal .error) (Or.inr ⟨d, hm, hg, he⟩)
  unfold minTimeInit
  rw [(minTimeFinish_fields _ r).2.1, if_pos this]

/-- the entry is executing, announces `n`, and expects no event after `x` -/
def Says (n x : Time) (d : DepInfo) : Prop := (executing d = true ∧ d.connection ≠ .self) ∧ d.next = n ∧ d.Te ≤ x

theorem robust_says {n x : Time} (h : n ≤ x) : Robust (Says n x) where
  off _ h := h
  on _ h := h
  iterExec d hd hr := by
    have := hd.1.1
    unfold executing at this
    simp only [decide_eq_true_eq] at this
    have h2 : TimeState.execReqIter.rank = 2 := rfl
    have h5 : TimeState.granted.rank = 5 := rfl
    omega
  iterTime d hd _ := ⟨⟨by show decide _ = true; simp, hd.1.2⟩, hd.2.1, by show d.next ≤ x; rw [hd.2.1]; exact h⟩

/-- the entry has not entered executing mode -/
def NotStarted (d : DepInfo) : Prop := executing d = false

theorem robust_notStarted : Robust NotStarted where
  off _ h := h
  on _ h := h
  iterExec d hd hr := rfl
  iterTime d hd hs := by
    have : executing d = false := hd
    unfold executing at this
    rw [hs] at this; exact absurd this (by decide)

theorem isDependency_split {ds : Deps} {g : FedId} (h : isDependency ds g = true) :
    ∃ d rest, fromLB ds g = d :: rest ∧ d.fedID = g ∧ d.dependency = true := by
  unfold isDependency at h
  split at h
  · cases h
  · rename_i d rest hd
    split at h
    · rename_i hg; exact ⟨d, rest, hd, hg, h⟩
    · cases h

theorem fromLB_before_append (ds : Deps) (g : FedId) (d : DepInfo) (rest : Deps) (hd : d.fedID = g) :
    fromLB (before ds g ++ d :: rest) g = d :: rest := by
  induction ds with
  | nil => rw [show before [] g = [] from rfl, List.nil_append, fromLB_cons, if_neg (by omega)]
  | cons e es ih =>
    rw [before_cons]
    split
    · rename_i h
      rw [List.cons_append, fromLB_cons, if_pos h]; exact ih
    · rw [List.nil_append, fromLB_cons, if_neg (by omega)]

theorem has_announce {ds : Deps} {cmd : Msg} {P Q : DepInfo → Prop} (h : isDependency ds cmd.source = true)
    (hQ : ∀ d ∈ ds, Q d) (hP : ∀ d : DepInfo, Q d → d.fedID = cmd.source → P (d.process cmd).1) : Has cmd.source P (updateTime ds cmd).1 := by
  obtain ⟨d, rest, h1, h2, h3⟩ := isDependency_split h
  unfold updateTime find
  rw [h1]
  simp only [h2, if_true, h3, Bool.not_true, Bool.false_eq_true, if_false]
  unfold modify
  rw [h1]
  simp only [h2, if_true]
  exact ⟨(d.process cmd).1, by simp, (process_fedID cmd d).trans h2, (process_flags cmd d).1.trans h3,
    hP d (hQ d (by rw [fromLB_eq h1]; simp)) h2⟩

theorem isDependency_removeDependent {ds : Deps} {g : FedId} (h : isDependency ds g = true) :
    isDependency (removeDependent ds g) g = true := by
  obtain ⟨d, rest, h1, h2, h3⟩ := isDependency_split h
  unfold removeDependent
  rw [h1]
  simp only [h2, if_true, h3, Bool.not_true, Bool.false_eq_true, if_false]
  unfold isDependency
  rw [fromLB_before_append _ _ _ _ (by first | rfl | exact h2)]
  simp

theorem has_announce_msg {ds : Deps} {cmd : Msg} {P Q : DepInfo → Prop} (h : isDependency ds cmd.source = true)
    (hb : cmd.action ≠ .timeBlock ∧ cmd.action ≠ .timeUnblock ∧ cmd.action ≠ .timeBarrier ∧
      cmd.action ≠ .timeBarrierClear ∧ cmd.action ≠ .forceTimeGrant)
    (hQ : ∀ d ∈ ds, Q d) (hQ' : ∀ d ∈ removeDependent ds cmd.source, Q d)
    (hP : ∀ d : DepInfo, Q d → d.fedID = cmd.source → P (d.process cmd).1) : Has cmd.source P (tableMsg ds cmd) := by
  unfold tableMsg
  split <;> rename_i ha
  · exact absurd ha hb.1
  · exact absurd ha hb.2.1
  · exact absurd ha hb.2.2.1
  · exact absurd ha hb.2.2.2.1
  · exact absurd ha hb.2.2.2.2
  all_goals (first | exact has_announce (isDependency_removeDependent h) hQ' hP | exact has_announce h hQ hP)

end Deps

namespace TC
open Deps

theorem deps_updateValueTime (tc : TC) (t : Time) (s : Bool) : (tc.updateValueTime t s).deps = tc.deps := by
  unfold updateValueTime
  simp only
  repeat' split
  all_goals (first | rfl | (rw [deps_sendTimeRequest]; rfl) | skip)

theorem deps_updateMessageTime (tc : TC) (t : Time) (s : Bool) : (tc.updateMessageTime t s).deps = tc.deps := by
  unfold updateMessageTime
  simp only
  repeat' split
  all_goals (first | rfl | (rw [deps_sendTimeRequest]; rfl) | skip)

theorem deps_timeRequest (tc : TC) (t : Time) (it : IterReq) (nv nm : Time) :
    (tc.timeRequest t it nv nm).deps = tc.deps.resetEvents tc.granted := by
  unfold timeRequest
  simp only
  split
  · rfl
  · rw [deps_sendTimeRequest]; rfl

theorem gt_timeRequest (tc : TC) (t : Time) (it : IterReq) (nv nm : Time) :
    (tc.timeRequest t it nv nm).globalTime = tc.globalTime := by
  unfold timeRequest
  simp only
  split
  · rfl
  · obtain ⟨o, l, u, h⟩ := sendTimeRequest_frame (tc.prepRequest t it nv nm).updateTimeFactors invalidFed; rw [h]; rfl

/-- when the table has an entry that says `(n, x)`, the coordinator allows at most this time -/
theorem allow_le {tc : TC} {g : FedId} {n x : Time} (h : Has g (Says n x) tc.deps) (hg : g ≠ invalidFed)
    (hn : 0 ≤ n) (hi : 0 ≤ tc.info.inputDelay)
    (B : Time) (hB : (if tc.info.restrictive || tc.globalTime then n else max n x) ≤ B)
    (hfar : B + tc.info.inputDelay + tc.info.outputDelay + max tc.info.period tc.info.timeDelta < cTerm) :
    tc.updateTimeFactors.allow ≤ tc.info.inputDelay + B := by
  obtain ⟨d, hm, h1, h2, ⟨h3, _⟩, h4, h5⟩ := h
  have ht := total_le hm h2 (by rw [h1]; exact hg) h3 (by omega) (tc.info.restrictive || tc.globalTime) tc.seq
  rw [updateTimeFactors_allow]
  simp only
  have hb : (minTimeTotal tc.deps (tc.info.restrictive || tc.globalTime) invalidFed invalidFed tc.seq).next ≤ B := by
    refine Int.le_trans ht (Int.le_trans ?_ hB)
    split <;> omega
  rw [if_pos (by omega)]
  omega

end TC
end Verif
