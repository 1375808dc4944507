import Verif.Lemmas.FedLife
/-! Arithmetic of allowed times and what a grant check returns. -/
namespace Verif
namespace TC

theorem ceilDiv_spec (a p : Int) (hp : 0 < p) : a ≤ ceilDiv a p * p ∧ ceilDiv a p * p < a + p := by
  unfold ceilDiv
  have h1 := Int.mul_ediv_add_emod (-a) p
  have h2 := Int.emod_lt_of_pos (-a) hp
  have h3 := Int.emod_nonneg (-a) (show p ≠ 0 by omega)
  have h4 : -(-a / p) * p = -(p * (-a / p)) := by rw [Int.neg_mul, Int.mul_comm]
  omega

theorem ceilDiv_mono (a b p : Int) (hp : 0 < p) (h : a ≤ b) : ceilDiv a p ≤ ceilDiv b p := by
  unfold ceilDiv
  have := Int.ediv_le_ediv hp (show -b ≤ -a by omega)
  omega

/-- the first grid point strictly after the base that is at least `t` -/
def gridUp (base p t : Int) : Int :=
  if t - base > p then base + ceilDiv (t - base) p * p else base + p

theorem gridUp_ge (base p t : Int) (hp : 0 < p) : t ≤ gridUp base p t ∧ base + p ≤ gridUp base p t := by
  unfold gridUp
  have := ceilDiv_spec (t - base) p hp
  split <;> omega

theorem gridUp_lt (base p t : Int) (hp : 0 < p) : gridUp base p t < t + p ∨ gridUp base p t = base + p := by
  unfold gridUp
  have := ceilDiv_spec (t - base) p hp
  split
  · left; omega
  · right; rfl

theorem gridUp_grid (base p t : Int) (hp : 0 < p) : ∃ k : Nat, 1 ≤ k ∧ gridUp base p t = base + k * p := by
  unfold gridUp
  split
  · have := ceilDiv_spec (t - base) p hp
    have h0 : 0 < ceilDiv (t - base) p := by
      apply Int.lt_of_not_ge
      intro h
      have : ceilDiv (t - base) p * p ≤ 0 := Int.mul_nonpos_of_nonpos_of_nonneg h (by omega)
      omega
    refine ⟨(ceilDiv (t - base) p).toNat, by omega, ?_⟩
    rw [Int.toNat_of_nonneg (by omega)]
  · exact ⟨1, Nat.le_refl _, by omega⟩

/-- it is the least such grid point -/
theorem gridUp_least (base p t : Int) (hp : 0 < p) (k : Nat) (hk : 1 ≤ k) (ht : t ≤ base + k * p) :
    gridUp base p t ≤ base + k * p := by
  obtain ⟨j, hj, e⟩ := gridUp_grid base p t hp
  have hmul : ∀ a b : Nat, a + 1 ≤ b → (a : Int) * p + p ≤ (b : Int) * p := by
    intro a b hab
    have : ((a + 1 : Nat) : Int) * p ≤ (b : Int) * p :=
      Int.mul_le_mul_of_nonneg_right (by omega) (by omega)
    rw [show ((a + 1 : Nat) : Int) = (a : Int) + 1 by omega, Int.add_mul] at this
    omega
  rcases Nat.lt_or_ge k j with h | h
  · have h1 := hmul k j h
    rcases gridUp_lt base p t hp with h2 | h2
    · omega
    · have := hmul 1 j (by omega)
      omega
  · rcases Nat.eq_or_lt_of_le h with h | h
    · rw [e, h]; exact Int.le_refl _
    · have := hmul j k h; omega

theorem gridUp_mono (base p s t : Int) (hp : 0 < p) (h : s ≤ t) : gridUp base p s ≤ gridUp base p t := by
  obtain ⟨k, hk, e⟩ := gridUp_grid base p t hp
  rw [e]
  apply gridUp_least base p s hp k hk
  have := (gridUp_ge base p t hp).1
  omega

theorem allowedTime_eq (info : TCOptions) (gb t : Time) :
    allowedTime info gb t =
      if info.period > 1 ∧ t < cTerm then
        if gb < info.offset ∧ t ≤ info.offset then info.offset
        else gridUp (if gb < info.offset then info.offset else gb) info.period t
      else t := by
  unfold allowedTime gridUp
  simp only [timeEpsilon]
  by_cases h1 : info.period > 1
  · by_cases h2 : t ≥ cTerm
    · have : ¬ (info.period > 1 ∧ t < cTerm) := by omega
      rw [if_pos h1, if_pos h2, if_neg this]
    · have : info.period > 1 ∧ t < cTerm := by omega
      rw [if_pos h1, if_neg h2, if_pos this]
  · have : ¬ (info.period > 1 ∧ t < cTerm) := by omega
    rw [if_neg h1, if_neg this]

theorem allowedTime_ge (info : TCOptions) (gb t : Time) : t ≤ allowedTime info gb t := by
  rw [allowedTime_eq]
  split
  · split
    · omega
    · exact (gridUp_ge _ _ _ (by omega)).1
  · exact Int.le_refl _

theorem allowedTime_mono (info : TCOptions) (gb s t : Time) (h : s ≤ t) (ht : t < cTerm) :
    allowedTime info gb s ≤ allowedTime info gb t := by
  rw [allowedTime_eq, allowedTime_eq]
  by_cases hp : info.period > 1
  · have hs' : info.period > 1 ∧ s < cTerm := by omega
    have ht' : info.period > 1 ∧ t < cTerm := by omega
    simp only [if_pos hs', if_pos ht']
    have hp0 : 0 < info.period := by omega
    by_cases h1 : gb < info.offset
    · simp only [h1, if_true, true_and]
      have := (gridUp_ge info.offset info.period t hp0).2
      split
      · split <;> omega
      · split
        · omega
        · exact gridUp_mono _ _ _ _ hp0 h
    · simp only [h1, if_false, false_and]
      exact gridUp_mono _ _ _ _ hp0 h
  · have hs' : ¬ (info.period > 1 ∧ s < cTerm) := by omega
    have ht' : ¬ (info.period > 1 ∧ t < cTerm) := by omega
    rw [if_neg hs', if_neg ht']
    exact h

theorem stepLoop_spec (p d : Int) (hp : 0 < p) : ∀ (n : Nat) (r : Int), (d - r).toNat ≤ n →
    d ≤ stepLoop p d n r ∧ r ≤ stepLoop p d n r ∧ ∃ k : Nat, stepLoop p d n r = r + k * p := by
  intro n
  induction n with
  | zero => intro r h; refine ⟨by unfold stepLoop; omega, by unfold stepLoop; omega, 0, by unfold stepLoop; omega⟩
  | succ n ih =>
    intro r h
    unfold stepLoop
    split
    · obtain ⟨h1, h2, k, hk⟩ := ih (r + p) (by omega)
      refine ⟨h1, by omega, k + 1, ?_⟩
      rw [hk, show ((k + 1 : Nat) : Int) = (k : Int) + 1 by omega, Int.add_mul]
      omega
    · exact ⟨by omega, Int.le_refl _, 0, by omega⟩

/-- the next possible time is at least one step away -/
theorem nextPossible_ge (info : TCOptions) (g gb : Time) (hb : gb = g) (_hd : 1 ≤ info.timeDelta) :
    g + info.timeDelta ≤ nextPossible info g gb ∨ (nextPossible info g gb = maxVal ∧ cTerm - max info.timeDelta info.period ≤ g ∧ g ≠ 0) := by
  unfold nextPossible
  split
  · left
    split
    · omega
    · split
      · have := allowedTime_ge info gb (max info.timeDelta info.period)
        omega
      · split
        · omega
        · rename_i h
          simp only [timeEpsilon] at h
          have := (stepLoop_spec info.period info.timeDelta (by omega) _ _
            (Nat.le_refl (info.timeDelta - (info.offset + info.period)).toNat)).1
          simp only
          omega
  · split
    · exact Or.inr ⟨rfl, by omega, by omega⟩
    · have := allowedTime_ge info gb (gb + max info.timeDelta info.period)
      omega

theorem nextPossible_ge' (tc : TC) (h : GoodTime tc) : tc.granted ≤ tc.getNextPossibleTime := by
  have := nextPossible_ge tc.info tc.granted tc.grantBase h.base h.delta.1
  have := h.range
  have := h.delta.1
  unfold getNextPossibleTime
  omega

theorem nextPossible_gt (tc : TC) (h : GoodTime tc) (hg : tc.granted < maxVal) :
    tc.granted < tc.getNextPossibleTime := by
  have := nextPossible_ge tc.info tc.granted tc.grantBase h.base h.delta.1
  have := h.delta.1
  unfold getNextPossibleTime
  omega

/-- the next execution time depends only on the core -/
theorem nextExec_core {a b : TC} (h : a.core = b.core) : a.nextExec = b.nextExec := by
  have h1 : a.granted = b.granted := congrArg Core.granted h
  have h2 : a.grantBase = b.grantBase := congrArg Core.grantBase h
  have h3 : a.requested = b.requested := congrArg Core.requested h
  have h4 : a.iterating = b.iterating := congrArg Core.iterating h
  have h5 : a.info = b.info := congrArg Core.info h
  have h6 : a.value = b.value := congrArg Core.value h
  have h7 : a.message = b.message := congrArg Core.message h
  unfold nextExec generateAllowedTime getNextPossibleTime
  rw [h1, h2, h3, h4, h5, h6, h7]

/-- the earliest pending event, with the input delay added -/
def eventTime (tc : TC) : Time :=
  if min tc.message tc.value < cTerm then min tc.message tc.value + tc.info.inputDelay else min tc.message tc.value

/-- never before the granted time -/
theorem nextExec_ge (tc : TC) (h : GoodTime tc) (hr : tc.granted ≤ tc.requested) : tc.granted ≤ tc.nextExec := by
  have hnp := nextPossible_ge' tc h
  have ha := fun t => allowedTime_ge tc.info tc.grantBase t
  unfold nextExec generateAllowedTime
  split
  · split
    · have := ha tc.requested; omega
    · simp only
      have := ha tc.requested
      generalize (if min tc.message tc.value < cTerm then _ else _) = x
      split <;> omega
  · simp only
    have key : ∀ e : Int, tc.granted ≤ e → tc.granted ≤
        (if tc.granted < cTerm then (if e > tc.granted then allowedTime tc.info tc.grantBase e else e)
          else allowedTime tc.info tc.grantBase e) := by
      intro e he
      have := ha e
      split
      · split <;> omega
      · omega
    apply key
    split
    · split <;> omega
    · omega

/-- Without iterations: the next execution time is the allowed time of some `e` strictly later than the
last grant and not later than the request. -/
theorem nextExec_noIter (tc : TC) (h : GoodTime tc) (hi : tc.iterating = .noIterations) (hg : tc.granted < cTerm)
    (hr : tc.getNextPossibleTime ≤ tc.requested) :
    ∃ e, tc.nextExec = allowedTime tc.info tc.grantBase e ∧ tc.granted < e ∧ e ≤ tc.requested ∧
      (tc.info.uninterruptible = true → e = tc.requested) ∧
      (tc.info.uninterruptible = false → e = (if min tc.requested tc.eventTime ≤ tc.granted then
        tc.getNextPossibleTime else min tc.requested tc.eventTime)) := by
  have hnp := nextPossible_gt tc h (by have : cTerm < maxVal := by decide
                                       omega)
  unfold nextExec generateAllowedTime
  cases hu : tc.info.uninterruptible with
  | true =>
    simp only [hi, if_true]
    exact ⟨tc.requested, rfl, by omega, Int.le_refl _, fun _ => rfl, fun h => by cases h⟩
  | false =>
    simp only [Bool.false_eq_true, if_false, hi, if_true]
    refine ⟨if min tc.requested tc.eventTime ≤ tc.granted then tc.getNextPossibleTime
      else min tc.requested tc.eventTime, ?_, ?_, ?_, by simp, fun _ => rfl⟩
    · rw [if_pos hg]
      unfold eventTime
      apply if_pos
      split <;> omega
    · split <;> omega
    · split <;> omega

/-- With iterations: the last grant again, or the allowed time of a later `e` not later than the request. -/
theorem nextExec_iter (tc : TC) (hi : tc.iterating ≠ .noIterations) (hg : tc.granted < cTerm) 
    (hr : tc.granted ≤ tc.requested) :
    tc.nextExec = tc.granted ∨
    ∃ e, tc.nextExec = allowedTime tc.info tc.grantBase e ∧ e ≤ tc.requested ∧ tc.granted ≤ e := by
  unfold nextExec generateAllowedTime
  simp only [if_neg hi, if_pos hg]
  split
  · generalize (if min tc.message tc.value < cTerm then _ else _) = x
    split
    · exact Or.inl rfl
    · exact Or.inr ⟨_, rfl, Int.le_refl _, hr⟩
  · generalize (if min tc.message tc.value < cTerm then _ else _) = x
    by_cases h : min tc.requested x ≤ tc.granted
    · rw [if_pos h]; simp
    · rw [if_neg h, if_pos (by omega)]
      right
      exact ⟨_, rfl, by omega, by omega⟩

end TC
end Verif
