import Verif.Lemmas.Deps
/-! Helper lemmas about the `generateMinTime*` folds. -/
namespace Verif
namespace Deps

/-- the dependency is executing (granted, requesting a time or in error) -/
def executing (d : DepInfo) : Bool := decide (TimeState.granted.rank ≤ d.state.rank)

theorem minTimeTe_fields (m : TimeData) (d : DepInfo) :
    (minTimeTe m d).Te = min m.Te d.Te ∧ (minTimeTe m d).next = m.next ∧
    (minTimeTe m d).minDe = m.minDe ∧ (minTimeTe m d).state = m.state := by
  unfold minTimeTe
  by_cases h : d.Te < m.Te
  · rw [if_pos h]; refine ⟨?_, rfl, rfl, rfl⟩; show d.Te = _; omega
  · rw [if_neg h]; split <;> (refine ⟨?_, rfl, rfl, rfl⟩; show m.Te = _; omega)

theorem minTimeNext_fields (m : TimeData) (d : DepInfo) (c : Int) :
    (minTimeNext m d c).next = min m.next d.next ∧ (minTimeNext m d c).Te = m.Te ∧
    (minTimeNext m d c).minDe = m.minDe := by
  unfold minTimeNext
  by_cases h : d.next < m.next
  · rw [if_pos h]; refine ⟨?_, rfl, rfl⟩; show d.next = _; omega
  · rw [if_neg h]; split <;> (refine ⟨?_, rfl, rfl⟩; show m.next = _; omega)

theorem minTimeNext_state_of_gt (m : TimeData) (d : DepInfo) (c : Int) (h : m.next < d.next) :
    (minTimeNext m d c).state = m.state := by
  unfold minTimeNext
  rw [if_neg (by omega), if_neg (by omega)]

theorem minTimeNext_state_rank (m : TimeData) (d : DepInfo) (c : Int) (hd : executing d)
    (hm : TimeState.granted.rank ≤ m.state.rank) :
    TimeState.granted.rank ≤ (minTimeNext m d c).state.rank := by
  unfold executing at hd
  unfold minTimeNext
  split
  · simpa using hd
  · split
    · simp only
      split
      · split
        · simpa using hd
        · exact hm
      · split
        · simpa using hd
        · exact hm
    · exact hm

theorem minTimeImpl_exec (ig : FedId) (c : Int) (m : TimeData) (d : DepInfo) (hd : executing d) (hi : d.fedID ≠ ig) :
    (minTimeImpl ig c m d).Te = min m.Te d.Te ∧ (minTimeImpl ig c m d).next = min m.next d.next ∧
    (minTimeImpl ig c m d).minDe = minTimeMinDe m.minDe d c ∧
    (TimeState.granted.rank ≤ m.state.rank →
      TimeState.granted.rank ≤ (minTimeImpl ig c m d).state.rank) ∧
    (m.next < d.next → (minTimeImpl ig c m d).state = m.state) := by
  have h0 : ¬ d.state.rank < TimeState.granted.rank := by simp [executing] at hd; omega
  unfold minTimeImpl
  rw [if_neg h0, if_neg hi]
  have h1 := minTimeTe_fields (minTimeNext { m with minDe := minTimeMinDe m.minDe d c } d c) d
  have h2 := minTimeNext_fields { m with minDe := minTimeMinDe m.minDe d c } d c
  refine ⟨?_, ?_, ?_, ?_, ?_⟩
  · rw [h1.1, h2.2.1]
  · rw [h1.2.1, h2.1]
  · rw [h1.2.2.1, h2.2.2]
  · intro hm; rw [h1.2.2.2]; exact minTimeNext_state_rank _ _ _ hd hm
  · intro hm; rw [h1.2.2.2]; exact minTimeNext_state_of_gt _ _ _ hm

theorem minTimeExec_fields (m : TimeData) (d : DepInfo) :
    (minTimeExec m d).Te = 0 ∧ (minTimeExec m d).next = initializationTime ∧
    (minTimeExec m d).minDe = 0 ∧ (minTimeExec m d).state.rank ≤ d.state.rank ∧
    (minTimeExec m d).state.rank ≤ m.state.rank := by
  refine ⟨rfl, rfl, rfl, ?_⟩
  show (TimeData.state _).rank ≤ _ ∧ (TimeData.state _).rank ≤ _
  unfold minTimeExec
  by_cases h1 : d.state.rank < m.state.rank
  · simp only [if_pos h1]; exact ⟨Nat.le_refl _, Nat.le_of_lt h1⟩
  · simp only [if_neg h1]
    by_cases h2 : d.state = m.state
    · simp only [if_pos h2]
      have : ∀ (x : TimeData), x.state = m.state → x.state.rank ≤ d.state.rank ∧ x.state.rank ≤ m.state.rank := by
        intro x hx; rw [hx, h2]; exact ⟨Nat.le_refl _, Nat.le_refl _⟩
      apply this
      repeat' split
      all_goals rfl
    · simp only [if_neg h2]; exact ⟨by omega, Nat.le_refl _⟩

theorem foldl_skip {α β : Type _} (p : α → Bool) (f : β → α → β) (l : List α) : ∀ b,
    l.foldl (fun m d => if p d then f m d else m) b = (l.filter p).foldl f b := by
  induction l with
  | nil => intro b; rfl
  | cons a l ih =>
    intro b
    by_cases h : p a <;> simp [h, ih]

/-- the fold over executing, non ignored dependencies computes plain minima -/
theorem fold_exec (ig : FedId) (c : Int) (l : List DepInfo) : ∀ m : TimeData,
    (∀ d ∈ l, executing d = true ∧ d.fedID ≠ ig) → TimeState.granted.rank ≤ m.state.rank →
    (l.foldl (minTimeImpl ig c) m).Te = (l.map (·.Te)).foldl min m.Te ∧
    (l.foldl (minTimeImpl ig c) m).next = (l.map (·.next)).foldl min m.next ∧
    (l.foldl (minTimeImpl ig c) m).minDe = l.foldl (fun t d => minTimeMinDe t d c) m.minDe ∧
    TimeState.granted.rank ≤ (l.foldl (minTimeImpl ig c) m).state.rank := by
  induction l with
  | nil => intro m _ hm; exact ⟨rfl, rfl, rfl, hm⟩
  | cons d l ih =>
    intro m h hm
    have hd := h d (by simp)
    obtain ⟨h1, h2, h3, h4, _⟩ := minTimeImpl_exec ig c m d hd.1 hd.2
    obtain ⟨i1, i2, i3, i4⟩ := ih (minTimeImpl ig c m d) (fun x hx => h x (by simp [hx])) (h4 hm)
    simp only [List.foldl_cons, List.map_cons]
    rw [i1, i2, i3, h1, h2, h3]
    exact ⟨rfl, rfl, rfl, i4⟩

theorem foldl_min_le (l : List Int) : ∀ a, l.foldl min a ≤ a ∧ ∀ x ∈ l, l.foldl min a ≤ x := by
  induction l with
  | nil => intro a; simp
  | cons b l ih =>
    intro a
    obtain ⟨h1, h2⟩ := ih (min a b)
    simp only [List.foldl_cons, List.mem_cons]
    refine ⟨by omega, ?_⟩
    rintro x (rfl | hx)
    · omega
    · exact h2 x hx

theorem foldl_min_mem (l : List Int) : ∀ a, l.foldl min a = a ∨ l.foldl min a ∈ l := by
  induction l with
  | nil => intro a; simp
  | cons b l ih =>
    intro a
    simp only [List.foldl_cons, List.mem_cons]
    rcases ih (min a b) with h | h
    · rw [h]; rcases Int.le_total a b with h' | h'
      · left; omega
      · right; left; omega
    · right; right; exact h

theorem minTimeMinDe_le (t : Time) (d : DepInfo) (c : Int) (hn : 0 ≤ t) : minTimeMinDe t d c ≤ t := by
  unfold minTimeMinDe minusOneSecond
  repeat' split
  all_goals omega


theorem minTimeImpl_ignored (ig : FedId) (c : Int) (m : TimeData) (d : DepInfo) (h : d.fedID = ig) :
    (minTimeImpl ig c m d).Te = m.Te ∧ (minTimeImpl ig c m d).next = m.next ∧
    (minTimeImpl ig c m d).state = m.state := by
  unfold minTimeImpl
  rw [if_pos h, if_pos h]
  repeat' split
  all_goals exact ⟨rfl, rfl, rfl⟩

/-- fold over executing dependencies, some of them ignored -/
theorem fold_exec_ig (ig : FedId) (c : Int) (l : List DepInfo) : ∀ m : TimeData,
    (∀ d ∈ l, d.fedID ≠ ig → executing d = true) → TimeState.granted.rank ≤ m.state.rank →
    (l.foldl (minTimeImpl ig c) m).Te =
      ((l.filter (fun d => decide (d.fedID ≠ ig))).map (·.Te)).foldl min m.Te ∧
    (l.foldl (minTimeImpl ig c) m).next =
      ((l.filter (fun d => decide (d.fedID ≠ ig))).map (·.next)).foldl min m.next ∧
    TimeState.granted.rank ≤ (l.foldl (minTimeImpl ig c) m).state.rank := by
  induction l with
  | nil => intro m _ hm; exact ⟨rfl, rfl, hm⟩
  | cons d l ih =>
    intro m h hm
    by_cases hi : d.fedID = ig
    · obtain ⟨h1, h2, h3⟩ := minTimeImpl_ignored ig c m d hi
      obtain ⟨i1, i2, i4⟩ := ih (minTimeImpl ig c m d) (fun x hx => h x (by simp [hx])) (by rw [h3]; exact hm)
      simp only [List.foldl_cons, List.filter_cons, hi, ne_eq, not_true, decide_false, Bool.false_eq_true, if_false]
      simp only [ne_eq] at i1 i2
      rw [i1, i2, h1, h2]; exact ⟨rfl, rfl, i4⟩
    · obtain ⟨h1, h2, h3, h4, _⟩ := minTimeImpl_exec ig c m d (h d (by simp) hi) hi
      obtain ⟨i1, i2, i4⟩ := ih (minTimeImpl ig c m d) (fun x hx => h x (by simp [hx])) (h4 hm)
      simp only [List.foldl_cons, List.filter_cons, hi, ne_eq, not_false_eq_true, decide_true, if_true, List.map_cons]
      simp only [ne_eq] at i1 i2
      rw [i1, i2, h1, h2]; exact ⟨rfl, rfl, i4⟩

/-- once a dependency that is not executing has been met, the accumulated state stays below "granted" -/
theorem fold_not_ready (ig : FedId) (c : Int) (l : List DepInfo)
    (hn : ∀ d ∈ l, d.fedID ≠ ig → executing d = true → 0 ≤ d.next) : ∀ m : TimeData,
    ((m.state.rank < TimeState.granted.rank ∧ m.next = initializationTime) ∨
      ∃ d ∈ l, d.fedID ≠ ig ∧ executing d = false) →
    (l.foldl (minTimeImpl ig c) m).state.rank < TimeState.granted.rank := by
  induction l with
  | nil => intro m h; rcases h with h | ⟨d, hd, _⟩; exact h.1; cases hd
  | cons d l ih =>
    intro m h
    rw [List.foldl_cons]
    apply ih (fun x hx => hn x (by simp [hx]))
    by_cases hi : d.fedID = ig
    · obtain ⟨h1, h2, h3⟩ := minTimeImpl_ignored ig c m d hi
      rw [h2, h3]
      rcases h with h | ⟨x, hx, h5, h6⟩
      · exact Or.inl h
      · rcases List.mem_cons.1 hx with rfl | hx
        · exact absurd hi h5
        · exact Or.inr ⟨x, hx, h5, h6⟩
    · cases hd : executing d with
      | false =>
        left
        have h0 : d.state.rank < TimeState.granted.rank := by simp [executing] at hd; omega
        have := minTimeExec_fields m d
        unfold minTimeImpl
        rw [if_pos h0, if_neg hi]
        exact ⟨by omega, this.2.1⟩
      | true =>
        obtain ⟨h1, h2, h3, h4, h5⟩ := minTimeImpl_exec ig c m d hd hi
        have hnn := hn d (by simp) hi hd
        rcases h with h | ⟨x, hx, h6, h7⟩
        · left
          have e : m.next = -1 := h.2
          rw [h5 (by omega), h2]
          exact ⟨h.1, by show _ = (-1 : Int); omega⟩
        · rcases List.mem_cons.1 hx with rfl | hx
          · rw [hd] at h7; cases h7
          · exact Or.inr ⟨x, hx, h6, h7⟩

theorem minTimeFinish_fields (m : TimeData) (r : Bool) :
    (minTimeFinish m r).Te = m.Te ∧ (minTimeFinish m r).state = m.state ∧
    (minTimeFinish m r).minDe = min m.minDe m.Te ∧
    (minTimeFinish m r).next = if r then m.next else max m.next (min m.minDe m.Te) := by
  unfold minTimeFinish
  by_cases h : m.Te < m.minDe
  · have e : min m.minDe m.Te = m.Te := by omega
    cases r with
    | true => simp only [if_pos h, Bool.not_true, Bool.false_eq_true, if_false, if_true, e]; simp
    | false =>
      simp only [if_pos h, Bool.not_false, if_true, Bool.false_eq_true, if_false, e]
      split
      · refine ⟨rfl, rfl, rfl, ?_⟩; show m.Te = _; omega
      · refine ⟨rfl, rfl, rfl, ?_⟩; show m.next = _; omega
  · have e : min m.minDe m.Te = m.minDe := by omega
    cases r with
    | true => simp only [if_neg h, Bool.not_true, Bool.false_eq_true, if_false, if_true, e]; simp
    | false =>
      simp only [if_neg h, Bool.not_false, if_true, Bool.false_eq_true, if_false, e]
      split
      · refine ⟨rfl, rfl, rfl, ?_⟩; show m.minDe = _; omega
      · refine ⟨rfl, rfl, rfl, ?_⟩; show m.next = _; omega

/-- the dependencies that take part in `generateMinTimeTotal` -/
def totalParts (ds : Deps) (self : FedId) : Deps :=
  ds.filter fun d => d.dependency && !(FedId.isValid self && d.minFedActual == self)

/-- the dependencies that take part in `generateMinTimeUpstream` -/
def upParts (ds : Deps) (self : FedId) : Deps :=
  ds.filter fun d => d.dependency && d.connection != .parent && !(FedId.isValid self && d.minFedActual == self)

/-- the dependencies that take part in `generateMinTimeDownstream` -/
def downParts (ds : Deps) (self : FedId) : Deps :=
  ds.filter fun d => d.dependency && d.connection == .parent && !(FedId.isValid self && d.minFedActual == self)

theorem minTimeTotal_eq (ds : Deps) (r : Bool) (self ig : FedId) (c : Int) :
    minTimeTotal ds r self ig c = minTimeInit (minTimeFinish
      ((totalParts ds self).foldl (minTimeImpl ig c) (TimeData.ofStart maxVal .error)) r) := by
  unfold minTimeTotal totalParts
  rw [← foldl_skip]
  congr 2
  congr 1
  funext m d
  by_cases h1 : d.dependency = true <;> simp [h1]
  by_cases h2 : FedId.isValid self = true <;> simp [h2]

theorem minTimeImpl_le (ig : FedId) (c : Int) (m : TimeData) (d : DepInfo) (h1 : m.next ≤ maxVal)
    (h2 : m.Te ≤ maxVal) : (minTimeImpl ig c m d).next ≤ maxVal ∧ (minTimeImpl ig c m d).Te ≤ maxVal := by
  by_cases hd : executing d
  · by_cases hi : d.fedID = ig
    · unfold minTimeImpl
      have h0 : ¬ d.state.rank < TimeState.granted.rank := by simp [executing] at hd; omega
      rw [if_neg h0, if_pos hi]
      split <;> exact ⟨h1, h2⟩
    · obtain ⟨a, b, _⟩ := minTimeImpl_exec ig c m d hd hi
      rw [a, b]; omega
  · unfold minTimeImpl
    have h0 : d.state.rank < TimeState.granted.rank := by simp [executing] at hd; omega
    rw [if_pos h0]
    split
    · exact ⟨h1, h2⟩
    · obtain ⟨a, b, _⟩ := minTimeExec_fields m d
      rw [a, b]; decide

theorem foldImpl_le (ig : FedId) (c : Int) (l : Deps) : ∀ m : TimeData, m.next ≤ maxVal → m.Te ≤ maxVal →
    (l.foldl (minTimeImpl ig c) m).next ≤ maxVal ∧ (l.foldl (minTimeImpl ig c) m).Te ≤ maxVal := by
  induction l with
  | nil => intro m h1 h2; exact ⟨h1, h2⟩
  | cons d l ih =>
    intro m h1 h2
    have := minTimeImpl_le ig c m d h1 h2
    exact ih _ this.1 this.2

theorem minTimeTotal_next_le (ds : Deps) (r : Bool) (self ig : FedId) (c : Int) :
    (minTimeTotal ds r self ig c).next ≤ maxVal := by
  rw [minTimeTotal_eq]
  obtain ⟨h1, h2⟩ := foldImpl_le ig c (totalParts ds self) (TimeData.ofStart maxVal .error)
    (Int.le_refl _) (Int.le_refl _)
  generalize (totalParts ds self).foldl (minTimeImpl ig c) (TimeData.ofStart maxVal .error) = m at h1 h2 ⊢
  unfold minTimeInit
  split
  · show initializationTime ≤ maxVal; decide
  · have := (minTimeFinish_fields m r).2.2.2
    rw [this]; split <;> omega

theorem upstream_fold (ig : FedId) (c : Int) (self : FedId) (ds : Deps) : ∀ a,
    (ds.foldl (fun (acc : TimeData × Int) dep =>
      if !dep.dependency then acc
      else if dep.connection = .parent then acc
      else if FedId.isValid self ∧ dep.minFedActual = self then acc
      else (minTimeImpl ig c acc.1 dep, acc.2 + dep.sequenceCounter)) a).1 =
    (upParts ds self).foldl (minTimeImpl ig c) a.1 := by
  induction ds with
  | nil => intro a; rfl
  | cons d ds ih =>
    intro a
    rw [List.foldl_cons, ih]
    unfold upParts
    rw [List.filter_cons]
    by_cases h1 : d.dependency = true <;> simp [h1]
    by_cases h4 : d.connection = .parent <;> simp [h4]
    by_cases h2 : FedId.isValid self = true <;> simp [h2]
    by_cases h3 : d.minFedActual = self <;> simp [h3]

theorem minTimeInit_seq (m : TimeData) (s : Int) :
    minTimeInit { m with sequenceCounter := s } = { minTimeInit m with sequenceCounter := s } := by
  unfold minTimeInit; simp only; split <;> rfl

theorem minTimeUpstream_eq (ds : Deps) (r : Bool) (self ig : FedId) (c : Int) :
    ∃ s, minTimeUpstream ds r self ig c = { minTimeInit (minTimeFinish
      ((upParts ds self).foldl (minTimeImpl ig c) (TimeData.ofStart maxVal .error)) r) with sequenceCounter := s } := by
  unfold minTimeUpstream
  simp only [upstream_fold, minTimeInit_seq]
  exact ⟨_, rfl⟩

theorem minTimeDownstream_eq (ds : Deps) (r : Bool) (self ig : FedId) (c : Int) :
    ∃ f, minTimeDownstream ds r self ig c = { minTimeInit (minTimeFinish
      ((downParts ds self).foldl (minTimeImpl ig c) (TimeData.ofStart maxVal .error)) r) with minFed := f } := by
  have : ds.foldl (fun m dep =>
      if !dep.dependency then m
      else if dep.connection ≠ .parent then m
      else if FedId.isValid self ∧ dep.minFedActual = self then m
      else minTimeImpl ig c m dep) (TimeData.ofStart maxVal .error) =
      (downParts ds self).foldl (minTimeImpl ig c) (TimeData.ofStart maxVal .error) := by
    unfold downParts
    rw [← foldl_skip]
    congr 1
    funext m d
    by_cases h1 : d.dependency = true <;> simp [h1]
    by_cases h4 : d.connection = .parent <;> simp [h4]
    by_cases h2 : FedId.isValid self = true <;> simp [h2]
  unfold minTimeDownstream
  rw [this]
  simp only
  split
  · exact ⟨_, rfl⟩
  · exact ⟨_, rfl⟩

end Deps
end Verif
