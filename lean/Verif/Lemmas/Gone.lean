import Verif.Lemmas.AllDeps
/-! The entry of a federate that has left does not take part in any decision. -/
namespace Verif
namespace Deps

/-- the entry of a federate that has left or failed -/
def Gone (d : DepInfo) : Prop :=
  (d.state = .granted ∨ d.state = .error) ∧ d.next = maxVal ∧ d.Te = maxVal ∧ d.minDe = maxVal ∧ d.connection ≠ .self

/-- equal as far as decisions are concerned -/
structure Sim (m n : TimeData) : Prop where
  next : m.next = n.next
  te : m.Te = n.Te
  minDe : m.minDe = n.minDe
  cls : m.state.rank < TimeState.granted.rank ↔ n.state.rank < TimeState.granted.rank

structure Low (m : TimeData) : Prop where
  next : m.next ≤ maxVal
  te : m.Te ≤ maxVal
  minDe : m.minDe ≤ maxVal
  cls : m.state.rank < TimeState.granted.rank → m.next < maxVal

theorem iterative_rank (s : TimeState) (h : iterativeRequest s = true) : ¬ s.rank < TimeState.granted.rank := by
  cases s <;> simp [iterativeRequest] at h <;> decide

theorem minTimeNext_cls (m : TimeData) (d : DepInfo) (c : Int) (hd : ¬ d.state.rank < TimeState.granted.rank) :
    (minTimeNext m d c).state.rank < TimeState.granted.rank ↔
      (m.state.rank < TimeState.granted.rank ∧ m.next ≤ d.next ∧
        (d.next = m.next → iterativeRequest d.state = false ∧ d.state ≠ .granted)) := by
  unfold minTimeNext
  by_cases h1 : d.next < m.next
  · rw [if_pos h1]
    constructor
    · intro h; exact absurd h hd
    · intro h; omega
  · rw [if_neg h1]
    by_cases h2 : d.next = m.next
    · rw [if_pos h2]
      simp only
      by_cases h3 : m.state.rank < TimeState.granted.rank
      · have h4 : iterativeRequest m.state = false := by
          cases hx : iterativeRequest m.state
          · rfl
          · exact absurd h3 (iterative_rank _ hx)
        simp only [h4, Bool.not_false, Bool.true_or, if_true, and_true]
        cases h5 : iterativeRequest d.state
        · simp only [Bool.false_eq_true, if_false]
          by_cases h6 : d.state = .granted
          · rw [if_pos h6]
            constructor
            · intro h; exact absurd h hd
            · intro h; exact absurd h6 (h.2.2 h2).2
          · rw [if_neg h6]
            exact ⟨fun h => ⟨h, by omega, fun _ => ⟨trivial, h6⟩⟩, fun h => h.1⟩
        · simp only [if_true]
          constructor
          · intro h; exact absurd h hd
          · intro h; exact absurd (h.2.2 h2).1 (by simp)
      · constructor
        · intro h
          exfalso
          revert h
          have hm : ¬ m.state.rank < TimeState.granted.rank := h3
          repeat' split
          all_goals (intro h; first | exact hd h | exact hm h)
        · intro h; exact absurd h.1 h3
    · rw [if_neg h2]
      exact ⟨fun h => ⟨h, by omega, fun e => absurd e h2⟩, fun h => h.1⟩

theorem sim_step {m n : TimeData} (h : Sim m n) (ig : FedId) (c : Int) (d : DepInfo) :
    Sim (minTimeImpl ig c m d) (minTimeImpl ig c n d) := by
  unfold minTimeImpl
  by_cases h1 : d.state.rank < TimeState.granted.rank
  · rw [if_pos h1, if_pos h1]
    by_cases h2 : d.fedID = ig
    · rw [if_pos h2, if_pos h2]; exact h
    · rw [if_neg h2, if_neg h2]
      have a := minTimeExec_fields m d
      have b := minTimeExec_fields n d
      exact ⟨a.2.1.trans b.2.1.symm, a.1.trans b.1.symm, a.2.2.1.trans b.2.2.1.symm,
        ⟨fun _ => by have := b.2.2.2.1; omega, fun _ => by have := a.2.2.2.1; omega⟩⟩
  · rw [if_neg h1, if_neg h1]
    by_cases h2 : d.fedID = ig
    · rw [if_pos h2, if_pos h2, h.minDe]
      split
      · exact ⟨h.next, h.te, rfl, h.cls⟩
      · exact h
    · rw [if_neg h2, if_neg h2]
      have a1 := minTimeTe_fields (minTimeNext { m with minDe := minTimeMinDe m.minDe d c } d c) d
      have b1 := minTimeTe_fields (minTimeNext { n with minDe := minTimeMinDe n.minDe d c } d c) d
      have a2 := minTimeNext_fields { m with minDe := minTimeMinDe m.minDe d c } d c
      have b2 := minTimeNext_fields { n with minDe := minTimeMinDe n.minDe d c } d c
      have a3 := minTimeNext_cls { m with minDe := minTimeMinDe m.minDe d c } d c h1
      have b3 := minTimeNext_cls { n with minDe := minTimeMinDe n.minDe d c } d c h1
      refine ⟨?_, ?_, ?_, ?_⟩
      · rw [a1.2.1, b1.2.1, a2.1, b2.1]; show min m.next _ = min n.next _; rw [h.next]
      · rw [a1.1, b1.1, a2.2.1, b2.2.1]; show min m.Te _ = min n.Te _; rw [h.te]
      · rw [a1.2.2.1, b1.2.2.1, a2.2.2, b2.2.2]; show minTimeMinDe m.minDe _ _ = _; rw [h.minDe]
      · rw [a1.2.2.2, b1.2.2.2, a3, b3]
        show (m.state.rank < _ ∧ m.next ≤ _ ∧ (_ = m.next → _)) ↔ (n.state.rank < _ ∧ n.next ≤ _ ∧ (_ = n.next → _))
        rw [h.cls, h.next]

theorem minDe_low (x : Time) (d : DepInfo) (c : Int) (h : x ≤ maxVal) : minTimeMinDe x d c ≤ maxVal := by
  unfold minTimeMinDe
  have h1 : minusOneSecond ≤ maxVal := by decide
  split
  · split
    · split <;> omega
    · exact h1
  · split
    · split <;> omega
    · split <;> omega

theorem low_step {m : TimeData} (h : Low m) (ig : FedId) (c : Int) (d : DepInfo) : Low (minTimeImpl ig c m d) := by
  have hv : initializationTime < maxVal := by decide
  unfold minTimeImpl
  by_cases h1 : d.state.rank < TimeState.granted.rank
  · rw [if_pos h1]
    by_cases h2 : d.fedID = ig
    · rw [if_pos h2]; exact h
    · rw [if_neg h2]
      have a := minTimeExec_fields m d
      exact ⟨by rw [a.2.1]; exact Int.le_of_lt hv, by rw [a.1]; decide, by rw [a.2.2.1]; decide, fun _ => by rw [a.2.1]; exact hv⟩
  · rw [if_neg h1]
    by_cases h2 : d.fedID = ig
    · rw [if_pos h2]
      split
      · rename_i hx
        exact ⟨h.next, h.te, by have := h.minDe; show d.Te ≤ _; omega, h.cls⟩
      · exact h
    · rw [if_neg h2]
      have a1 := minTimeTe_fields (minTimeNext { m with minDe := minTimeMinDe m.minDe d c } d c) d
      have a2 := minTimeNext_fields { m with minDe := minTimeMinDe m.minDe d c } d c
      have a3 := minTimeNext_cls { m with minDe := minTimeMinDe m.minDe d c } d c h1
      refine ⟨?_, ?_, ?_, ?_⟩
      · rw [a1.2.1, a2.1]; show min m.next _ ≤ _; have := h.next; omega
      · rw [a1.1, a2.2.1]; show min m.Te _ ≤ _; have := h.te; omega
      · rw [a1.2.2.1, a2.2.2]; exact minDe_low _ _ _ h.minDe
      · rw [a1.2.2.2, a3, a1.2.1, a2.1]
        intro hx
        have := h.cls hx.1
        show min m.next _ < _
        omega

theorem gone_step {m : TimeData} (h : Low m) (ig : FedId) (c : Int) {d : DepInfo} (hd : Gone d) :
    Sim (minTimeImpl ig c m d) m := by
  obtain ⟨g1, g2, g3, g4, g5⟩ := hd
  have h1 : ¬ d.state.rank < TimeState.granted.rank := by
    rcases g1 with e | e <;> rw [e] <;> decide
  unfold minTimeImpl
  rw [if_neg h1]
  by_cases h2 : d.fedID = ig
  · rw [if_pos h2, if_neg (by rw [g3]; have := h.minDe; omega)]
    exact ⟨rfl, rfl, rfl, Iff.rfl⟩
  · rw [if_neg h2]
    have a1 := minTimeTe_fields (minTimeNext { m with minDe := minTimeMinDe m.minDe d c } d c) d
    have a2 := minTimeNext_fields { m with minDe := minTimeMinDe m.minDe d c } d c
    have a3 := minTimeNext_cls { m with minDe := minTimeMinDe m.minDe d c } d c h1
    refine ⟨?_, ?_, ?_, ?_⟩
    · rw [a1.2.1, a2.1, g2]; show min m.next _ = _; have := h.next; omega
    · rw [a1.1, a2.2.1, g3]; show min m.Te _ = _; have := h.te; omega
    · rw [a1.2.2.1, a2.2.2]
      show minTimeMinDe m.minDe d c = _
      unfold minTimeMinDe
      have := h.minDe
      rw [g4, g2]
      split
      · rw [if_pos (Int.le_refl _), if_neg (by omega)]
      · split
        · rw [if_neg (by omega)]
        · rw [if_neg (by omega)]
    · rw [a1.2.2.2, a3, g2]
      show (m.state.rank < _ ∧ m.next ≤ _ ∧ (_ = m.next → _)) ↔ _
      constructor
      · intro hx; exact hx.1
      · intro hx
        have := h.cls hx
        exact ⟨hx, h.next, fun e => by omega⟩

theorem fold_gone (ig : FedId) (c : Int) (l : Deps) : ∀ m n, Sim m n →
    Sim (l.foldl (minTimeImpl ig c) m) (l.foldl (minTimeImpl ig c) n) := by
  induction l with
  | nil => intro m n h; exact h
  | cons d l ih => intro m n h; rw [List.foldl_cons, List.foldl_cons]; exact ih _ _ (sim_step h ig c d)

theorem fold_low (ig : FedId) (c : Int) (l : Deps) : ∀ m, Low m → Low (l.foldl (minTimeImpl ig c) m) := by
  induction l with
  | nil => intro m h; exact h
  | cons d l ih => intro m h; rw [List.foldl_cons]; exact ih _ (low_step h ig c d)

/-- the time the table allows does not depend on it -/
theorem total_without (a b : Deps) {d : DepInfo} (hd : Gone d) (r : Bool) (own ig : FedId) (c : Int) :
    (minTimeTotal (a ++ d :: b) r own ig c).next = (minTimeTotal (a ++ b) r own ig c).next := by
  rw [minTimeTotal_eq, minTimeTotal_eq]
  have hsim : Sim ((totalParts (a ++ d :: b) own).foldl (minTimeImpl ig c) (TimeData.ofStart maxVal .error))
      ((totalParts (a ++ b) own).foldl (minTimeImpl ig c) (TimeData.ofStart maxVal .error)) := by
    have h0 : Low (TimeData.ofStart maxVal .error) := ⟨by decide, by decide, by decide, by decide⟩
    unfold totalParts
    rw [List.filter_append, List.filter_append, List.filter_cons, List.foldl_append, List.foldl_append]
    have hl := fold_low ig c (a.filter fun d => d.dependency && !(FedId.isValid own && d.minFedActual == own)) _ h0
    split
    · rw [List.foldl_cons]
      exact fold_gone _ _ _ _ _ (gone_step hl ig c hd)
    · exact ⟨rfl, rfl, rfl, Iff.rfl⟩
  unfold minTimeInit
  have f1 := minTimeFinish_fields ((totalParts (a ++ d :: b) own).foldl (minTimeImpl ig c) (TimeData.ofStart maxVal .error)) r
  have f2 := minTimeFinish_fields ((totalParts (a ++ b) own).foldl (minTimeImpl ig c) (TimeData.ofStart maxVal .error)) r
  rw [f1.2.1, f2.2.1]
  by_cases hx : ((totalParts (a ++ d :: b) own).foldl (minTimeImpl ig c) (TimeData.ofStart maxVal .error)).state.rank < TimeState.granted.rank
  · rw [if_pos hx, if_pos (hsim.cls.1 hx)]
  · rw [if_neg hx, if_neg (fun h => hx (hsim.cls.2 h)), f1.2.2.2, f2.2.2.2, hsim.next, hsim.te, hsim.minDe]

theorem ready_without (a b : Deps) {d : DepInfo} (hd : Gone d) (it : Bool) (t : Time) (mode : DelayMode) :
    readyForTimeGrant (a ++ d :: b) it t mode = readyForTimeGrant (a ++ b) it t mode := by
  have hct : cTerm ≤ maxVal := by decide
  have hn : decide (d.next ≥ cTerm) = true := by rw [hd.2.1]; simpa using hct
  have h1 : iterGrantCheck t mode d = true := by unfold iterGrantCheck; rw [hn]; simp
  have h2 : grantCheck t mode d = true := by unfold grantCheck; rw [hn]; simp
  unfold readyForTimeGrant
  split <;> simp [h1, h2]

theorem readyExec_without (a b : Deps) {d : DepInfo} (hd : Gone d) (it w : Bool) :
    readyForExecEntry (a ++ d :: b) it w = readyForExecEntry (a ++ b) it w := by
  obtain ⟨g1, g2, g3, g4, g5⟩ := hd
  have hv : (0 : Int) < maxVal := by decide
  have h1 : iterWaitingCheck d = true := by
    unfold iterWaitingCheck
    rcases g1 with e | e <;> simp [e]
  have h2 : ∀ s, (!d.dependency || d.connection == .self || decide (TimeState.rank s ≤ d.state.rank) ||
    (d.state == .granted && decide (d.next > 0))) = true ∨ d.state = .error := by
    intro s
    rcases g1 with e | e
    · left; simp [e, g2, hv]
    · exact Or.inr e
  unfold readyForExecEntry allPastExec
  rcases g1 with e | e <;> cases it <;> cases w <;> simp [h1, e, g2, hv, TimeState.rank,
    show (TimeState.granted == TimeState.initialized) = false from by decide,
    show (TimeState.error == TimeState.initialized) = false from by decide]

theorem pastExec_without (a b : Deps) {d : DepInfo} (hd : Gone d) (it : Bool) :
    allPastExec (a ++ d :: b) it = allPastExec (a ++ b) it := by
  obtain ⟨g1, g2, g3, g4, g5⟩ := hd
  have hv : (0 : Int) < maxVal := by decide
  unfold allPastExec
  rcases g1 with e | e <;> cases it <;> simp [e, g2, hv, TimeState.rank]

end Deps

namespace TC
open Deps

theorem foldl_skip {α β} (F : β → α → β) (i : β) (a b : List α) (d : α) (h : ∀ acc, F acc d = acc) :
    (a ++ d :: b).foldl F i = (a ++ b).foldl F i := by
  rw [List.foldl_append, List.foldl_append, List.foldl_cons, h]

theorem grantRestriction_without (a b : Deps) {d : DepInfo} (hd : Gone d) (own : FedId) (seq : Int) (exec : Time)
    (he : exec < maxVal) (w r : Bool) :
    checkGrantRestriction (a ++ d :: b) own seq exec w r = checkGrantRestriction (a ++ b) own seq exec w r := by
  unfold checkGrantRestriction
  split
  · rfl
  · rw [foldl_skip]
    intro acc
    split
    · rfl
    · split
      · rfl
      · rw [if_pos (Or.inl (by rw [hd.2.1]; exact he))]

theorem execRestriction_without (a b : Deps) {d : DepInfo} (hd : Gone d) (own : FedId) (seq : Int) (w r : Bool) :
    checkExecRestriction (a ++ d :: b) own seq w r = checkExecRestriction (a ++ b) own seq w r := by
  unfold checkExecRestriction
  split
  · rfl
  · rw [foldl_skip]
    intro acc
    split
    · rfl
    · split
      · rfl
      · rw [if_neg (by rcases hd.1 with e | e <;> rw [e] <;> decide),
          if_pos (by rcases hd.1 with e | e <;> rw [e] <;> decide)]

theorem finishGrant_result (t u : TC) (g h : FedId) (s s' : Bool) (p : MPR) (hi : t.iterating = u.iterating) :
    (t.finishGrant g s p).2 = (u.finishGrant h s' p).2 := by
  unfold finishGrant
  split
  · rfl
  · rfl
  · rw [hi]; split <;> rfl
  · rfl

theorem applyRestriction_result (t u : TC) (c : RestrictionCheck) (r s s' : Bool) (ok : MPR)
    (h : t.restrictionLevel = u.restrictionLevel) :
    (t.applyRestriction c r s ok).2.2 = (u.applyRestriction c r s' ok).2.2 := by
  unfold applyRestriction
  rw [h]
  repeat' split
  all_goals rfl

theorem iterDecision_iterating (t : TC) (s : Bool) : (t.iterDecision s).1.iterating = t.iterating :=
  congrArg Core.iterating (core_iterDecision t s).1

theorem grantIter_without (a b : Deps) {d : DepInfo} (hd : Gone d) (t u : TC) (trig : FedId) (s s' : Bool)
    (h1 : ¬ (u.exec ≥ cTerm ∧ u.allow ≥ cTerm)) (e1 : t.allow = u.allow) (e2 : t.exec = u.exec)
    (e5 : t.requested = u.requested) (e6 : t.iterating = u.iterating) (e7 : t.info = u.info)
    (e8 : t.deps = a ++ d :: b) (e9 : u.deps = a ++ b) (e10 : t.hasIterationData = u.hasIterationData)
    (e11 : t.granted = u.granted) (e12 : t.seq = u.seq) (e13 : t.self = u.self)
    (e14 : t.restrictionLevel = u.restrictionLevel) :
    (grantIter t trig s).2 = (grantIter u trig s').2 := by
  have hct : cTerm ≤ maxVal := by decide
  unfold grantIter
  simp only [e1, e2, e10, e11, e6]
  split
  · split
    · rfl
    · split <;> rfl
  · split
    · rename_i h4 h5
      have hex : u.exec < maxVal := by
        have : ¬ (u.exec ≥ cTerm ∧ u.allow ≥ cTerm) := h1
        rw [h5] at this
        omega
      have hdec : (iterDecision t s).2.2 =
          (iterDecision u s').2.2 := by
        unfold iterDecision
        simp only [e1, e2, e5, e7, e8, e9, e10, e11, e12, e13, ready_without a b hd,
          grantRestriction_without a b hd _ _ _ hex]
        split
        · split
          · split
            · rfl
            · split <;> rfl
          · rfl
        · split
          · split
            · rfl
            · split
              · rfl
              · exact applyRestriction_result _ _ _ _ _ _ _ e14
          · rfl
      rw [hdec]
      refine finishGrant_result _ _ _ _ _ _ _ ?_
      rw [iterDecision_iterating, iterDecision_iterating]
      exact e6
    · exact finishGrant_result _ _ _ _ _ _ _ e6

theorem switch_result (t u : TC) (trig : FedId) (s s' : Bool) (hi : t.iterating = u.iterating)
    (h1 : (grantNoIter t trig s).2 = (grantNoIter u trig s').2) (h2 : (grantIter t trig s).2 = (grantIter u trig s').2) :
    (match t.iterating with
      | .noIterations => t.grantNoIter trig s
      | .iterateIfNeeded => t.grantIter trig s
      | .forceIteration => t.grantIter trig s
      | _ => t.finishGrant trig s .continueProcessing).2 =
    (match u.iterating with
      | .noIterations => u.grantNoIter trig s'
      | .iterateIfNeeded => u.grantIter trig s'
      | .forceIteration => u.grantIter trig s'
      | _ => u.finishGrant trig s' .continueProcessing).2 := by
  rw [hi]
  split
  · exact h1
  · exact h2
  · exact h2
  · exact finishGrant_result t u _ _ _ _ _ hi

/-- the same coordinator, apart from the table and from what has been sent -/
structure Alike (t u : TC) : Prop where
  core : t.core = u.core
  blocks : t.blocks = u.blocks
  seq : t.seq = u.seq
  level : t.restrictionLevel = u.restrictionLevel

theorem Alike.nextExec {t u : TC} (h : Alike t u) : t.nextExec = u.nextExec := by
  have c := h.core
  have h1 : t.info = u.info := congrArg Core.info c
  have h2 : t.iterating = u.iterating := congrArg Core.iterating c
  have h3 : t.message = u.message := congrArg Core.message c
  have h4 : t.value = u.value := congrArg Core.value c
  have h5 : t.granted = u.granted := congrArg Core.granted c
  have h6 : t.grantBase = u.grantBase := congrArg Core.grantBase c
  have h7 : t.requested = u.requested := congrArg Core.requested c
  unfold TC.nextExec generateAllowedTime getNextPossibleTime
  rw [h1, h2, h3, h4, h5, h6, h7]

/-- **The decision on a time request** is the same with and without the entry. -/
theorem grant_without (tc tc' : TC) (a b : Deps) (d : DepInfo) (hd : Gone d) (hal : Alike tc tc') (ht : tc.deps = a ++ d :: b)
    (ht' : tc'.deps = a ++ b) (trig : FedId) :
    (tc.checkTimeGrant trig).2 = (tc'.checkTimeGrant trig).2 := by
  have c := hal.core
  have f1 : tc.info = tc'.info := congrArg Core.info c
  have f2 : tc.globalTime = tc'.globalTime := congrArg Core.globalTime c
  have e1 : tc.updateTimeFactors.allow = tc'.updateTimeFactors.allow := by
    rw [updateTimeFactors_allow, updateTimeFactors_allow]
    simp only
    rw [ht, total_without a b hd, ht', f1, f2, hal.seq]
  have e2 : tc.updateTimeFactors.exec = tc'.updateTimeFactors.exec := hal.nextExec
  have e3 : tc.updateTimeFactors.block = tc'.updateTimeFactors.block := congrArg Prod.snd hal.blocks
  have e4 : tc.updateTimeFactors.nonGranting = tc'.updateTimeFactors.nonGranting := congrArg Core.nonGranting c
  have e5 : tc.updateTimeFactors.requested = tc'.updateTimeFactors.requested := congrArg Core.requested c
  have e6 : tc.updateTimeFactors.iterating = tc'.updateTimeFactors.iterating := congrArg Core.iterating c
  have e7 : tc.updateTimeFactors.info = tc'.updateTimeFactors.info := f1
  have e8 : tc.updateTimeFactors.deps = a ++ d :: b := ht
  have e9 : tc'.updateTimeFactors.deps = a ++ b := ht'
  have e10 : tc.updateTimeFactors.hasIterationData = tc'.updateTimeFactors.hasIterationData := congrArg Core.hasIterationData c
  have e11 : tc.updateTimeFactors.granted = tc'.updateTimeFactors.granted := congrArg Core.granted c
  have e12 : tc.updateTimeFactors.seq = tc'.updateTimeFactors.seq := hal.seq
  have e13 : tc.updateTimeFactors.self = tc'.updateTimeFactors.self := congrArg Core.self c
  have e14 : tc.updateTimeFactors.restrictionLevel = tc'.updateTimeFactors.restrictionLevel := hal.level
  unfold checkTimeGrant
  simp only
  generalize tc.updateTimeFactors = t at *
  generalize tc'.updateTimeFactors = u at *
  by_cases h1 : u.exec ≥ cTerm ∧ u.allow ≥ cTerm
  · rw [if_pos h1, if_pos (by rw [e1, e2]; exact h1)]
  · rw [if_neg h1, if_neg (by rw [e1, e2]; exact h1)]
    by_cases h2 : u.block ≤ u.exec ∧ u.block < cTerm
    · rw [if_pos h2, if_pos (by rw [e3, e2]; exact h2)]
    · rw [if_neg h2, if_neg (by rw [e3, e2]; exact h2)]
      by_cases h3 : u.nonGranting = true ∧ u.exec < u.requested
      · rw [if_pos h3, if_pos (by rw [e4, e2, e5]; exact h3)]
      · rw [if_neg h3, if_neg (by rw [e4, e2, e5]; exact h3)]
        have hnoiter : ∀ s s', (grantNoIter { t with needSendAll := false } trig s).2 =
            (grantNoIter { u with needSendAll := false } trig s').2 := by
          intro s s'
          unfold grantNoIter
          simp only [e1, e2, e5, e7, e8, e9, ready_without a b hd]
          split
          · rfl
          · split
            · split
              · rfl
              · split
                · rfl
                · exact finishGrant_result _ _ _ _ _ _ _ e6
            · exact finishGrant_result _ _ _ _ _ _ _ e6
        have hiter : ∀ s s', (grantIter { t with needSendAll := false } trig s).2 =
            (grantIter { u with needSendAll := false } trig s').2 := by
          intro s s'
          exact grantIter_without a b hd _ _ trig s s' h1 e1 e2 e5 e6 e7 e8 e9 e10 e11 e12 e13 e14
        exact switch_result { t with needSendAll := false } { u with needSendAll := false } trig _ _ e6 (hnoiter _ _) (hiter _ _)

/-- **The decision on entering executing mode** is the same with and without the entry. -/
theorem entry_without (tc tc' : TC) (a b : Deps) (d : DepInfo) (hd : Gone d) (hal : Alike tc tc') (ht : tc.deps = a ++ d :: b)
    (ht' : tc'.deps = a ++ b) (trig trig' : FedId) :
    (tc.checkExecEntry trig).2 = (tc'.checkExecEntry trig').2 := by
  have c := hal.core
  have f1 : tc.info = tc'.info := congrArg Core.info c
  have f2 : tc.globalTime = tc'.globalTime := congrArg Core.globalTime c
  have f3 : tc.block = tc'.block := congrArg Prod.snd hal.blocks
  have f4 : tc.iterating = tc'.iterating := congrArg Core.iterating c
  have f5 : tc.iteration = tc'.iteration := congrArg Core.iteration c
  have f6 : tc.hasInitUpdates = tc'.hasInitUpdates := congrArg Core.hasInitUpdates c
  have f7 : tc.self = tc'.self := congrArg Core.self c
  unfold checkExecEntry
  rw [ht, ht', f1, f3, f4, readyExec_without a b hd]
  split
  · rfl
  · split
    · rfl
    · have hg : ∀ (t u : TC) (s s' : Bool), t.deps = a ++ d :: b → u.deps = a ++ b → t.info = u.info → t.globalTime = u.globalTime →
          t.iterating = u.iterating → t.iteration = u.iteration → t.hasInitUpdates = u.hasInitUpdates → t.self = u.self →
          t.seq = u.seq → t.restrictionLevel = u.restrictionLevel →
          (t.execDecision s).2.2 = (u.execDecision s').2.2 := by
        intro t u s s' g1 g2 g3 g4 g5 g6 g7 g8 g9 g10
        unfold execDecision
        rw [g5]
        split
        · rw [g3]
          split
          · rfl
          · simp only [g1, g2, g4, g8, g9, total_without a b hd]
        all_goals first
          | (simp only [g1, g2, g3, g6, g7, g8, g9, readyExec_without a b hd, pastExec_without a b hd,
              execRestriction_without a b hd]
             split
             · rfl
             · split
               · rfl
               · split
                 · rfl
                 · exact applyRestriction_result _ _ _ _ _ _ _ g10)
          | rfl
      show (execDecision _ _).2.2 = (execDecision _ _).2.2
      apply hg <;> first | rfl | assumption | exact hal.seq | exact hal.level

end TC
end Verif
