import Verif.Props.RecorderSpec
/-!
# C71: the recorder records what it gets
-/
namespace Verif.Recorder

theorem foldl_says (t : Int) (i : Nat) (us : List (Nat × String)) (s : State) :
    ((us.foldl (captureValue t i) s).points).map Point.says = s.points.map Point.says ++ us.map fun u => (t, i, u.1, u.2) := by
  induction us generalizing s with
  | nil => simp
  | cons u r ih => rw [List.foldl_cons, ih]; simp [captureValue, Point.says]

theorem since_snoc (pre : List Grant) (g : Grant) : since (pre ++ [g]) = if g.nextStep then 1 else since pre + 1 := by
  unfold since
  cases h : g.nextStep <;> simp [h]
  all_goals try omega

/-- What the loop adds. -/
theorem loop_says (allow : Bool) (stop : Int) (gs : List Grant) : ∀ (pre : List Grant) (it : Nat) (s : State), (allow = true → it = since pre) →
    (loop allow stop it s gs).points.map Point.says = s.points.map Point.says ++
      (withBefore pre (taken stop gs)).flatMap fun x => x.2.updates.map fun u => (x.2.time, iteration allow x.1 x.2, u.1, u.2) := by
  induction gs with
  | nil => intro pre it s _; simp [loop, taken, withBefore]
  | cons g r ih =>
    intro pre it s hit
    have hi : iterFor allow it g = iteration allow pre g := by
      unfold iterFor iteration
      cases ha : allow
      · rfl
      · cases hn : g.nextStep <;> simp [hit ha]
    have hc : (capture (iteration allow pre g) s g).points.map Point.says = s.points.map Point.says ++
        g.updates.map fun u => (g.time, iteration allow pre g, u.1, u.2) := foldl_says _ _ _ _
    unfold loop taken
    dsimp only
    rw [hi]
    split
    · simp [withBefore, hc]
    · rw [ih (pre ++ [g]) _ _ ?_, hc]
      · simp [withBefore]
      · intro ha
        rw [since_snoc]
        cases hn : g.nextStep <;> simp [iteration, ha, hn]

/-- C71: what is recorded is, call by call and grant by grant, every new value, once, in order, with the time granted and the iteration. -/
theorem C71_points (allow : Bool) (calls : List Call) : (run allow calls).points.map Point.says = calls.flatMap (expected allow) := by
  unfold run
  have key : ∀ s : State, (calls.foldl (fun s c => loop allow c.stop 0 s c.grants) s).points.map Point.says =
      s.points.map Point.says ++ calls.flatMap (expected allow) := by
    induction calls with
    | nil => intro s; simp
    | cons c r ih =>
      intro s
      rw [List.foldl_cons, ih, loop_says allow c.stop c.grants [] 0 s (fun _ => rfl)]
      simp [expected]
  simpa using key {}

theorem foldl_msgs (t : Int) (i : Nat) (us : List (Nat × String)) (s : State) : (us.foldl (captureValue t i) s).messages = s.messages := by
  induction us generalizing s with
  | nil => rfl
  | cons u r ih => rw [List.foldl_cons, ih]; rfl

theorem loop_msgs (allow : Bool) (stop : Int) (gs : List Grant) : ∀ (it : Nat) (s : State),
    (loop allow stop it s gs).messages = s.messages ++ (taken stop gs).flatMap fun g => g.msgs.flatten := by
  induction gs with
  | nil => intro it s; simp [loop, taken]
  | cons g r ih =>
    intro it s
    unfold loop taken
    dsimp only
    split
    · simp [capture, foldl_msgs]
    · rw [ih]; simp [capture, foldl_msgs]

/-- C71: every message is recorded, once, grant by grant and endpoint by endpoint, in the order in which the endpoint gave it. -/
theorem C71_messages (allow : Bool) (calls : List Call) :
    (run allow calls).messages = calls.flatMap fun c => (taken c.stop c.grants).flatMap fun g => g.msgs.flatten := by
  unfold run
  have key : ∀ s : State, (calls.foldl (fun s c => loop allow c.stop 0 s c.grants) s).messages =
      s.messages ++ calls.flatMap fun c => (taken c.stop c.grants).flatMap fun g => g.msgs.flatten := by
    induction calls with
    | nil => intro s; simp
    | cons c r ih =>
      intro s
      rw [List.foldl_cons, ih, loop_msgs]
      simp
  simpa using key {}

/-! ## Statistics and first points -/

/-- The counts are right, and so are the marks on first points. -/
def Good (s : State) : Prop :=
  (∀ i, s.cnt i = (s.points.filter fun p => p.sub == i).length) ∧
  (∀ i, s.lastVal i = ((s.points.reverse.find? fun p => p.sub == i).map (·.value)).getD "") ∧
  ∀ a p b, s.points = a ++ p :: b → (p.first = true ↔ ∀ q ∈ a, q.sub ≠ p.sub)

theorem good_value (t : Int) (i : Nat) (s : State) (u : Nat × String) (h : Good s) : Good (captureValue t i s u) := by
  obtain ⟨h1, h2, h3⟩ := h
  refine ⟨fun j => ?_, fun j => ?_, fun a p b hp => ?_⟩
  · unfold captureValue
    by_cases hj : j = u.1
    · subst hj; simp [h1]
    · have : ¬ u.1 = j := fun x => hj x.symm
      simp [hj, this, h1]
  · unfold captureValue
    by_cases hj : j = u.1
    · subst hj; simp
    · have : ¬ u.1 = j := fun x => hj x.symm
      simp [hj, this, h2]
  · unfold captureValue at hp
    dsimp only at hp
    rcases List.eq_nil_or_concat b with rfl | ⟨b', x, rfl⟩
    · obtain ⟨ea, ep⟩ := List.append_inj' hp (by simp)
      injection ep with ep
      subst ea; subst ep
      simp only [beq_iff_eq, h1, List.length_eq_zero_iff, List.filter_eq_nil_iff]
    · rw [List.concat_eq_append, ← List.cons_append, ← List.append_assoc] at hp
      exact h3 a p b' (List.append_inj' hp (by simp)).1

theorem good_run (allow : Bool) (calls : List Call) : Good (run allow calls) := by
  have h0 : ∀ (t : Int) (i : Nat) (us : List (Nat × String)) (s : State), Good s → Good (us.foldl (captureValue t i) s) := by
    intro t i us
    induction us with
    | nil => intro s h; exact h
    | cons u r ih => intro s h; exact ih _ (good_value t i s u h)
  have h1 : ∀ (stop : Int) (gs : List Grant) (it : Nat) (s : State), Good s → Good (loop allow stop it s gs) := by
    intro stop gs
    induction gs with
    | nil => intro it s h; exact h
    | cons g r ih =>
      intro it s h
      have hc : Good (capture (iterFor allow it g) s g) := h0 _ _ _ _ h
      unfold loop
      dsimp only
      split
      · exact hc
      · exact ih _ _ hc
  unfold run
  have key : ∀ s : State, Good s → Good (calls.foldl (fun s c => loop allow c.stop 0 s c.grants) s) := by
    induction calls with
    | nil => intro s h; exact h
    | cons c r ih => intro s h; exact ih _ (h1 _ _ _ _ h)
  exact key {} ⟨fun _ => rfl, fun _ => rfl, fun a p b h => by cases a <;> cases h⟩

/-- C71: a point is marked as the first of its subscription exactly if none before it is of the same subscription. -/
theorem C71_first (allow : Bool) (calls : List Call) (a b : List Point) (p : Point) (h : (run allow calls).points = a ++ p :: b) :
    p.first = true ↔ ∀ q ∈ a, q.sub ≠ p.sub := (good_run allow calls).2.2 a p b h

/-- C71: the statistics give the number of points of a subscription and the last of its values. -/
theorem C71_statistics (allow : Bool) (calls : List Call) (i : Nat) :
    (run allow calls).cnt i = ((run allow calls).points.filter fun p => p.sub == i).length ∧
    (run allow calls).lastVal i = (((run allow calls).points.reverse.find? fun p => p.sub == i).map (·.value)).getD "" :=
  ⟨(good_run allow calls).1 i, (good_run allow calls).2.1 i⟩

/-! ## Order -/

/-- The points at time `t`, iteration `i`, are followed by later ones. -/
theorem foldl_sorted (t : Int) (i : Nat) (us : List (Nat × String)) (s : State) (h : s.points.Pairwise Before)
    (hs : ∀ p ∈ s.points, p.time < t ∨ p.time = t ∧ p.iteration ≤ i) :
    (us.foldl (captureValue t i) s).points.Pairwise Before ∧
      ∀ p ∈ (us.foldl (captureValue t i) s).points, p.time < t ∨ p.time = t ∧ p.iteration ≤ i := by
  induction us generalizing s with
  | nil => exact ⟨h, hs⟩
  | cons u r ih =>
    refine ih _ ?_ ?_
    · unfold captureValue
      rw [List.pairwise_append]
      refine ⟨h, List.pairwise_singleton _ _, fun a ha b hb => ?_⟩
      rw [List.mem_singleton] at hb; subst hb
      exact hs a ha
    · intro p hp
      unfold captureValue at hp
      rcases List.mem_append.1 hp with hp | hp
      · exact hs p hp
      · rw [List.mem_singleton] at hp; subst hp
        exact .inr ⟨rfl, Nat.le_refl _⟩

theorem endTime_cons (t : Int) (g : Grant) (l : List Grant) : endTime t (g :: l) = endTime g.time l := by
  unfold endTime
  rw [List.getLast?_cons]
  cases l.getLast? <;> rfl

theorem loop_sorted (allow : Bool) (stop : Int) (gs : List Grant) : ∀ (t : Int) (it : Nat) (s : State), Plausible t (taken stop gs) →
    (∃ g ∈ gs, stop ≤ g.time) → (allow = false → ∀ g ∈ gs, g.nextStep = true) → (it = 0 ∨ t < stop) → s.points.Pairwise Before →
    (∀ p ∈ s.points, p.time < t ∨ p.time = t ∧ p.iteration ≤ it) →
    (loop allow stop it s gs).points.Pairwise Before ∧
      ∀ p ∈ (loop allow stop it s gs).points, p.time < endTime t (taken stop gs) ∨ p.time = endTime t (taken stop gs) ∧ p.iteration ≤ 0 := by
  induction gs with
  | nil => intro t it s _ he; obtain ⟨g, hg, _⟩ := he; cases hg
  | cons g r ih =>
    intro t it s hp he ha hz h hs
    have hp' : (if g.nextStep then t < g.time else g.time = t) ∧ (¬ stop ≤ g.time → Plausible g.time (taken stop r)) := by
      unfold taken at hp
      split at hp
      · rename_i hst; exact ⟨hp.1, fun x => absurd hst x⟩
      · exact ⟨hp.1, fun _ => hp.2⟩
    obtain ⟨h1, h2⟩ := hp'
    have hle : (∀ p ∈ s.points, p.time < g.time ∨ p.time = g.time ∧ p.iteration ≤ iterFor allow it g) ∧
        (stop ≤ g.time → iterFor allow it g = 0) := by
      unfold iterFor
      cases hn : g.nextStep with
      | true =>
        rw [hn] at h1; simp at h1
        exact ⟨fun p hp => by have := hs p hp; omega, fun _ => by simp⟩
      | false =>
        rw [hn] at h1; simp at h1
        cases hal : allow with
        | true =>
          refine ⟨fun p hp => by have := hs p hp; simp; omega, fun hst => ?_⟩
          simp; omega
        | false => have := ha hal g List.mem_cons_self; rw [hn] at this; cases this
    obtain ⟨c1, c2⟩ := foldl_sorted g.time (iterFor allow it g) g.updates s h hle.1
    unfold loop taken
    dsimp only
    split
    · rename_i hst
      refine ⟨c1, fun p hp => ?_⟩
      have := c2 p hp
      rw [hle.2 hst] at this
      exact this
    · rename_i hst
      obtain ⟨d1, d2⟩ := ih g.time (iterFor allow it g + 1) (capture (iterFor allow it g) s g) (h2 hst) (by
        obtain ⟨x, hx, hs'⟩ := he
        rcases List.mem_cons.1 hx with rfl | hx
        · exact absurd hs' hst
        · exact ⟨x, hx, hs'⟩) (fun x y hy => ha x y (List.mem_cons_of_mem _ hy)) (.inr (by omega)) c1
        fun p hp => by have := c2 p hp; omega
      refine ⟨d1, fun p hp => ?_⟩
      have := d2 p hp
      rw [endTime_cons]
      exact this

/-- C71: what is recorded, over any number of calls, is in the order in which it can be played back: by time, and by iteration at the same time. -/
theorem C71_playback_order (allow : Bool) (calls : List Call) (t : Int) (h : PlausibleRun allow t calls) :
    (run allow calls).points.Pairwise Before := by
  unfold run
  have key : ∀ (t : Int) (s : State), PlausibleRun allow t calls → s.points.Pairwise Before →
      (∀ p ∈ s.points, p.time < t ∨ p.time = t ∧ p.iteration ≤ 0) →
      (calls.foldl (fun s c => loop allow c.stop 0 s c.grants) s).points.Pairwise Before := by
    clear h t
    induction calls with
    | nil => intro t s _ h _; exact h
    | cons c r ih =>
      intro t s h h1 h2
      obtain ⟨a, b, d, e⟩ := h
      obtain ⟨x, y⟩ := loop_sorted allow c.stop c.grants t 0 s a b d (.inl rfl) h1 h2
      exact ih _ _ e x y
  exact key t {} h List.Pairwise.nil fun p hp => by cases hp

/-- C71 (counterexample): a second call counts iterations from zero again although the time is still the same: two values of the same subscription
are recorded for the same time and iteration, and nothing says that there was an iteration between them. -/
theorem C71_iteration_restarts : PlausibleRun true 0 [⟨5, [⟨5, true, [(0, "a")], []⟩]⟩, ⟨5, [⟨5, false, [(0, "b")], []⟩]⟩] ∧
    (run true [⟨5, [⟨5, true, [(0, "a")], []⟩]⟩, ⟨5, [⟨5, false, [(0, "b")], []⟩]⟩]).points.map Point.says = [(5, 0, 0, "a"), (5, 0, 0, "b")] := by
  refine ⟨?_, by decide +kernel⟩
  simp [PlausibleRun, Plausible, taken, endTime]

/-- Two calls with iterations, several subscriptions and messages. -/
example : (fun s : State => (s.points, s.messages, s.cnt 0, s.lastVal 0))
    (run true [⟨0, [⟨-1, true, [], []⟩, ⟨0, true, [], [[0]]⟩]⟩, ⟨5, [⟨2, true, [(0, "a"), (1, "b")], [[1], [2, 3]]⟩, ⟨2, false, [(0, "c")], []⟩, ⟨6, true, [], [[4]]⟩]⟩,
      ⟨9, [⟨7, true, [(0, "d")], []⟩, ⟨9, true, [(1, "e")], []⟩, ⟨10, true, [(1, "f")], []⟩]⟩]) =
    ([⟨2, 0, 0, "a", true⟩, ⟨2, 0, 1, "b", true⟩, ⟨2, 1, 0, "c", false⟩, ⟨7, 0, 0, "d", false⟩, ⟨9, 0, 1, "e", false⟩], [0, 1, 2, 3, 4], 3, "d") := by
  decide +kernel

/-- The calls of the example meet the hypotheses. -/
example : PlausibleRun true (-2) [⟨0, [⟨-1, true, [], []⟩, ⟨0, true, [], [[0]]⟩]⟩, ⟨5, [⟨2, true, [(0, "a"), (1, "b")], [[1], [2, 3]]⟩, ⟨2, false, [(0, "c")], []⟩, ⟨6, true, [], [[4]]⟩]⟩,
      ⟨9, [⟨7, true, [(0, "d")], []⟩, ⟨9, true, [(1, "e")], []⟩]⟩] := by
  simp [PlausibleRun, Plausible, taken, endTime]

end Verif.Recorder
