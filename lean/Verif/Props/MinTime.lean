import Verif.Lemmas.MinTime
/-! # C13: aggregated times are true minima -/
namespace Verif
namespace MinTime
open Deps

/-- `v` is the least element of the list. -/
def LeastOf (v : Int) (l : List Int) : Prop := v ∈ l ∧ ∀ x ∈ l, v ≤ x

/-- Specification: `d` is one of the federates the aggregate is computed for.  `dir` selects the direction
(`total` all, `upstream` everything but the parent, `downstream` the parent only); a dependency whose own
minimum was caused by `self` and the ignored federate do not count. -/
inductive Dir | total | upstream | downstream

def Member (dir : Dir) (self ignore : FedId) (d : DepInfo) : Prop :=
  d.dependency = true ∧ d.fedID ≠ ignore ∧ ¬ (FedId.isValid self = true ∧ d.minFedActual = self) ∧
  match dir with
  | .total => True
  | .upstream => d.connection ≠ .parent
  | .downstream => d.connection = .parent

/-- The aggregate computed by the code for each direction. -/
def aggregate (dir : Dir) (ds : Deps) (restricted : Bool) (self ignore : FedId) (code : Int) : TimeData :=
  match dir with
  | .total => minTimeTotal ds restricted self ignore code
  | .upstream => minTimeUpstream ds restricted self ignore code
  | .downstream => minTimeDownstream ds restricted self ignore code

/-- Specification: the federate has entered executing mode (it was granted, requested a time or failed there). -/
def Executing (d : DepInfo) : Prop :=
  d.state = .granted ∨ d.state = .timeReq ∨ d.state = .timeReqIter ∨ d.state = .timeReqRequireIter ∨ d.state = .error

private theorem executing_iff (d : DepInfo) : executing d = true ↔ Executing d := by
  unfold executing Executing; cases d.state <;> simp [TimeState.rank]

private def parts (dir : Dir) (ds : Deps) (self : FedId) : Deps :=
  match dir with
  | .total => totalParts ds self
  | .upstream => upParts ds self
  | .downstream => downParts ds self

private theorem mem_parts (dir : Dir) (ds : Deps) (self ig : FedId) (d : DepInfo) :
    (d ∈ parts dir ds self ∧ d.fedID ≠ ig) ↔ d ∈ ds ∧ Member dir self ig d := by
  unfold parts Member totalParts upParts downParts
  cases dir <;> simp only [List.mem_filter, Bool.and_eq_true, Bool.not_eq_true', Bool.and_eq_false_iff,
    beq_eq_false_iff_ne, bne_iff_ne, beq_iff_eq, and_true, ne_eq, not_and] <;>
    (cases FedId.isValid self <;> simp <;> grind)

private theorem aggregate_fields (dir : Dir) (ds : Deps) (r : Bool) (self ig : FedId) (c : Int) :
    let F := minTimeInit (minTimeFinish
      ((parts dir ds self).foldl (minTimeImpl ig c) (TimeData.ofStart maxVal .error)) r)
    (aggregate dir ds r self ig c).Te = F.Te ∧ (aggregate dir ds r self ig c).next = F.next ∧
    (aggregate dir ds r self ig c).minDe = F.minDe := by
  cases dir with
  | total => simp only [aggregate, parts, minTimeTotal_eq]; simp
  | upstream =>
    obtain ⟨s, h⟩ := minTimeUpstream_eq ds r self ig c
    simp only [aggregate, parts, h]; simp
  | downstream =>
    obtain ⟨s, h⟩ := minTimeDownstream_eq ds r self ig c
    simp only [aggregate, parts, h]; simp

private theorem least_of_fold (l : List Int) (a : Int) : LeastOf (l.foldl min a) (a :: l) := by
  have h := foldl_min_le l a
  have h' := foldl_min_mem l a
  refine ⟨?_, ?_⟩
  · rcases h' with h' | h' <;> simp [h']
  · rintro x hx
    rcases List.mem_cons.1 hx with rfl | hx
    · exact h.1
    · exact h.2 x hx

/-- **C13.** If every member is executing: the aggregate event time is the least event time of the members; under
the restrictive policy the aggregate next time is the least next time of the members; under the default
policy it is at least that and never later than what any single member declared (its next or its event
time). With no member the aggregate is the maximum time. -/
theorem C13_true_minimum (dir : Dir) (ds : Deps) (restricted : Bool) (self ignore : FedId) (code : Int)
    (hexec : ∀ d ∈ ds, Member dir self ignore d → Executing d) :
    let agg := aggregate dir ds restricted self ignore code
    ∃ members : List DepInfo, (∀ d, d ∈ members ↔ d ∈ ds ∧ Member dir self ignore d) ∧
      LeastOf agg.Te (maxVal :: members.map (·.Te)) ∧
      (restricted = true → LeastOf agg.next (maxVal :: members.map (·.next))) ∧
      (∀ d ∈ members, agg.next ≤ max d.next d.Te) ∧
      (∃ v, LeastOf v (maxVal :: members.map (·.next)) ∧ v ≤ agg.next) ∧
      agg.minDe ≤ agg.Te := by
  intro agg
  obtain ⟨a1, a2, a3⟩ := aggregate_fields dir ds restricted self ignore code
  have hp : ∀ d ∈ parts dir ds self, d.fedID ≠ ignore → executing d = true := by
    intro d hd hi
    have := (mem_parts dir ds self ignore d).1 ⟨hd, hi⟩
    exact (executing_iff d).2 (hexec d this.1 this.2)
  obtain ⟨f1, f2, f3⟩ := fold_exec_ig ignore code (parts dir ds self) (TimeData.ofStart maxVal .error) hp (by decide)
  obtain ⟨g1, g2, g3, g4⟩ := minTimeFinish_fields
    ((parts dir ds self).foldl (minTimeImpl ignore code) (TimeData.ofStart maxVal .error)) restricted
  have hinit : ∀ m : TimeData, TimeState.granted.rank ≤ m.state.rank → minTimeInit m = m := by
    intro m hm; unfold minTimeInit; rw [if_neg (by omega)]
  rw [hinit _ (by rw [g2]; exact f3)] at a1 a2 a3
  rw [g1, f1] at a1
  rw [g4, f2, f1] at a2
  rw [g3, f1] at a3
  refine ⟨(parts dir ds self).filter (fun d => decide (d.fedID ≠ ignore)), ?_, ?_, ?_, ?_, ?_, ?_⟩
  · intro d; rw [List.mem_filter, ← mem_parts]; simp
  · show LeastOf agg.Te _; rw [show agg.Te = _ from a1]; exact least_of_fold _ _
  · intro hr; show LeastOf agg.next _
    rw [show agg.next = _ from a2, if_pos hr]; exact least_of_fold _ _
  · intro d hd
    rw [show agg.next = _ from a2]
    have h1 := (foldl_min_le (((parts dir ds self).filter (fun d => decide (d.fedID ≠ ignore))).map (·.next)) maxVal).2
      d.next (List.mem_map_of_mem hd)
    have h2 := (foldl_min_le (((parts dir ds self).filter (fun d => decide (d.fedID ≠ ignore))).map (·.Te)) maxVal).2
      d.Te (List.mem_map_of_mem hd)
    simp only [TimeData.ofStart]
    split <;> omega
  · refine ⟨_, least_of_fold _ _, ?_⟩
    rw [show agg.next = _ from a2]
    simp only [TimeData.ofStart]
    split <;> omega
  · rw [show agg.minDe = _ from a3, show agg.Te = _ from a1]; omega

/-- **C13 (start-up).** If some member has not entered executing mode, the aggregate is the initialization time, so
nobody behind it is granted anything (executing members have declared non-negative times). -/
theorem C13_waits_for_start (dir : Dir) (ds : Deps) (restricted : Bool) (self ignore : FedId) (code : Int)
    (hn : ∀ d ∈ ds, Executing d → 0 ≤ d.next)
    (h : ∃ d ∈ ds, Member dir self ignore d ∧ ¬ Executing d) :
    let agg := aggregate dir ds restricted self ignore code
    agg.next = initializationTime ∧ agg.Te = initializationTime ∧ agg.minDe = initializationTime := by
  intro agg
  obtain ⟨a1, a2, a3⟩ := aggregate_fields dir ds restricted self ignore code
  have hr := fold_not_ready ignore code (parts dir ds self)
    (fun d hd hi he => hn d ((mem_parts dir ds self ignore d).1 ⟨hd, hi⟩).1 ((executing_iff d).1 he))
    (TimeData.ofStart maxVal .error)
    (by
      obtain ⟨d, hd, hm, he⟩ := h
      right
      have := (mem_parts dir ds self ignore d).2 ⟨hd, hm⟩
      exact ⟨d, this.1, this.2, by
        rcases hb : executing d with _ | _
        · rfl
        · exact absurd ((executing_iff d).1 hb) he⟩)
  obtain ⟨g1, g2, g3, g4⟩ := minTimeFinish_fields
    ((parts dir ds self).foldl (minTimeImpl ignore code) (TimeData.ofStart maxVal .error)) restricted
  have hinit : ∀ m : TimeData, m.state.rank < TimeState.granted.rank →
      (minTimeInit m).next = initializationTime ∧ (minTimeInit m).Te = initializationTime ∧
      (minTimeInit m).minDe = initializationTime := by
    intro m hm; unfold minTimeInit; rw [if_pos hm]; exact ⟨rfl, rfl, rfl⟩
  have := hinit _ (by rw [g2]; exact hr)
  exact ⟨a2.trans this.1, a1.trans this.2.1, a3.trans this.2.2⟩

/-- Specification: the member's declared dependent-event time is usable, i.e. it answers the request numbered
`code`, or no answer is expected from it. -/
def Usable (code : Int) (d : DepInfo) : Prop :=
  d.connection ≠ .self ∧
    (code = 0 ∨ d.responseSequenceCounter = code ∨ d.timingVersion = 0 ∨ d.dependent = false)

private theorem step_le (ig : FedId) (c : Int) (m : TimeData) (d : DepInfo) (h0 : 0 ≤ d.next) (h1 : 0 ≤ d.Te)
    (he : executing d = true) (hm : m.minDe = minusOneSecond ∨ 0 ≤ m.minDe) :
    (minTimeImpl ig c m d).minDe ≤ m.minDe ∧
    ((minTimeImpl ig c m d).minDe = minusOneSecond ∨ 0 ≤ (minTimeImpl ig c m d).minDe) := by
  by_cases hi : d.fedID = ig
  · have h3 : ¬ d.state.rank < TimeState.granted.rank := by simp [executing] at he; omega
    unfold minTimeImpl
    rw [if_neg h3, if_pos hi]
    split
    · rename_i h; exact ⟨Int.le_of_lt h.2, Or.inr h1⟩
    · exact ⟨Int.le_refl _, hm⟩
  · rw [(minTimeImpl_exec ig c m d he hi).2.2.1]
    unfold minTimeMinDe minusOneSecond at *
    repeat' split
    all_goals first | omega | (refine ⟨?_, ?_⟩ <;> omega)

private theorem fold_minDe (ig : FedId) (c : Int) (l : Deps) : ∀ m : TimeData,
    (∀ d ∈ l, executing d = true ∧ 0 ≤ d.next ∧ 0 ≤ d.Te ∧ 0 ≤ d.minDe) →
    (m.minDe = minusOneSecond ∨ 0 ≤ m.minDe) →
    (l.foldl (minTimeImpl ig c) m).minDe ≤ m.minDe ∧
    ∀ d ∈ l, d.fedID ≠ ig → (Usable c d → (l.foldl (minTimeImpl ig c) m).minDe ≤ d.minDe) ∧
      (d.connection ≠ .self → ¬ Usable c d → (l.foldl (minTimeImpl ig c) m).minDe ≤ d.next) := by
  induction l with
  | nil => intro m _ _; exact ⟨Int.le_refl _, fun d hd => by cases hd⟩
  | cons x l ih =>
    intro m h hm
    obtain ⟨e1, e2, e3, e4⟩ := h x (by simp)
    have hs := step_le ig c m x e2 e3 e1 hm
    obtain ⟨i1, i2⟩ := ih (minTimeImpl ig c m x) (fun d hd => h d (by simp [hd])) hs.2
    rw [List.foldl_cons]
    refine ⟨by omega, ?_⟩
    intro d hd hi
    rcases List.mem_cons.1 hd with rfl | hd
    · have hst : (Usable c d → (minTimeImpl ig c m d).minDe ≤ d.minDe) ∧
          (d.connection ≠ .self → ¬ Usable c d → (minTimeImpl ig c m d).minDe ≤ d.next) := by
        rw [(minTimeImpl_exec ig c m d e1 hi).2.2.1]
        have hm' := hm
        unfold minTimeMinDe Usable minusOneSecond at *
        refine ⟨fun hu => ?_, fun hc hu => ?_⟩
        · rw [if_pos hu]; repeat' split
          all_goals omega
        · rw [if_neg hu]
          have : ¬ (d.responseSequenceCounter = c ∧ d.dependent = true) := by
            intro hh; exact hu ⟨hc, Or.inr (Or.inl hh.1)⟩
          rw [if_neg this]; split <;> omega
      exact ⟨fun hu => Int.le_trans i1 (hst.1 hu), fun hc hu => Int.le_trans i1 (hst.2 hc hu)⟩
    · exact i2 d hd hi

/-- **C13 (dependent events).** The aggregate's earliest dependent-event time is never later than the one
declared by any member that answered, and never later than the next time of a member that did not. -/
theorem C13_dependent_event_bound (dir : Dir) (ds : Deps) (restricted : Bool) (self ignore : FedId) (code : Int)
    (hexec : ∀ d ∈ ds, Executing d ∧ 0 ≤ d.next ∧ 0 ≤ d.Te ∧ 0 ≤ d.minDe) :
    let agg := aggregate dir ds restricted self ignore code
    ∀ d ∈ ds, Member dir self ignore d →
      (Usable code d → agg.minDe ≤ d.minDe) ∧
      (d.connection ≠ .self → ¬ Usable code d → agg.minDe ≤ d.next) := by
  intro agg d hd hm
  obtain ⟨_, _, a3⟩ := aggregate_fields dir ds restricted self ignore code
  have hsub : ∀ d ∈ parts dir ds self, d ∈ ds := by
    intro d hd; unfold parts totalParts upParts downParts at hd
    split at hd <;> exact (List.mem_filter.1 hd).1
  have hp : ∀ d ∈ parts dir ds self, executing d = true ∧ 0 ≤ d.next ∧ 0 ≤ d.Te ∧ 0 ≤ d.minDe :=
    fun d hd => ⟨(executing_iff d).2 (hexec d (hsub d hd)).1, (hexec d (hsub d hd)).2⟩
  have hf := fold_minDe ignore code (parts dir ds self) (TimeData.ofStart maxVal .error) hp
    (Or.inr (by decide))
  obtain ⟨_, _, f3⟩ := fold_exec_ig ignore code (parts dir ds self) (TimeData.ofStart maxVal .error)
    (fun d hd _ => (hp d hd).1) (by decide)
  obtain ⟨g1, g2, g3, g4⟩ := minTimeFinish_fields
    ((parts dir ds self).foldl (minTimeImpl ignore code) (TimeData.ofStart maxVal .error)) restricted
  have hinit : ∀ m : TimeData, TimeState.granted.rank ≤ m.state.rank → minTimeInit m = m := by
    intro m hm; unfold minTimeInit; rw [if_neg (by omega)]
  rw [hinit _ (by rw [g2]; exact f3), g3] at a3
  obtain ⟨hd', hi⟩ := (mem_parts dir ds self ignore d).2 ⟨hd, hm⟩
  obtain ⟨b1, b2⟩ := hf.2 d hd' hi
  have e : agg.minDe = _ := a3
  exact ⟨fun hu => by have := b1 hu; omega, fun hc hu => by have := b2 hc hu; omega⟩

/-- three members, one parent, one ignored -/
private def sample : Deps := [
  { fedID := 131073, dependency := true, state := .timeReq, next := 4, Te := 9, minDe := 6 },
  { fedID := 131074, dependency := true, state := .granted, next := 5, Te := 5, minDe := 5 },
  { fedID := 131075, dependency := true, state := .timeReq, next := 2, Te := 3, minDe := 3 },
  { fedID := 1879048192, dependency := true, connection := .parent, state := .timeReq, next := 6, Te := 7, minDe := 7 }]

example : (∀ d ∈ sample, Member .upstream invalidFed 131075 d → Executing d) ∧
    (aggregate .upstream sample true invalidFed 131075 0).next = 4 ∧
    (aggregate .upstream sample false invalidFed 131075 0).next = 5 ∧
    (aggregate .total sample true invalidFed invalidFed 0).Te = 3 ∧
    (aggregate .downstream sample true invalidFed invalidFed 0).next = 6 := by
  refine ⟨?_, by decide, by decide, by decide, by decide⟩
  intro d hd _
  simp only [sample, List.mem_cons, List.not_mem_nil, or_false] at hd
  rcases hd with rfl | rfl | rfl | rfl <;> simp [Executing]

example : (∀ d ∈ sample, Executing d ∧ 0 ≤ d.next ∧ 0 ≤ d.Te ∧ 0 ≤ d.minDe) ∧
    (aggregate .total sample false invalidFed invalidFed 0).minDe = 3 := by
  refine ⟨?_, by decide⟩
  intro d hd
  simp only [sample, List.mem_cons, List.not_mem_nil, or_false] at hd
  rcases hd with rfl | rfl | rfl | rfl <;> simp [Executing]

example : ∃ ds : Deps, (∃ d ∈ ds, Member .total invalidFed invalidFed d ∧ ¬ Executing d) ∧
    (∀ d ∈ ds, Executing d → 0 ≤ d.next) ∧ (aggregate .total ds false invalidFed invalidFed 0).next = -1 :=
  ⟨{ fedID := 5, dependency := true, state := .execReq } :: sample,
    ⟨_, List.mem_cons_self, ⟨rfl, by decide, by decide, trivial⟩, by simp [Executing]⟩,
    by intro d hd he
       simp only [sample, List.mem_cons, List.not_mem_nil, or_false] at hd
       rcases hd with rfl | rfl | rfl | rfl | rfl <;> simp [Executing] at *,
    by decide⟩

end MinTime
end Verif
