import Verif.Lemmas.Timers
/-!
# C61 Message timers

A timer hands over what it was given last, not before the time it was set to, once; and unless it is cancelled or given another
message, it does hand it over.  Stated about every history of calls, of time passing, and of handlers being queued and run.
-/
namespace Verif
namespace Timers

/-- Whatever timer `i` hands over was given to it by an earlier event `e`; since then the timer was not cancelled and was given
nothing else, and it handed nothing over; and every setting of the time since `e`, unless replaced, has been respected, with all
delays added to it. -/
theorem C61_sent (es : List Ev) (l r : List Sent) (i m : Nat) (at' : Int) (h : (run es).sent = l ++ ⟨i, m, at'⟩ :: r) :
    ∃ pre e mid k post, es = pre ++ e :: (mid ++ .run k :: post) ∧ Gives pre e i m ∧
      (∀ x ∈ mid, ¬ Cancels x i ∧ ¬ Replaces x i) ∧
      (run (pre ++ e :: mid)).sent = l ∧ (run (pre ++ e :: mid)).now = at' ∧ sentBy i (run pre) = l.filter (fun x => x.idx == i) ∧
      ∀ pre' e' mid' t, pre ++ e :: mid = pre' ++ e' :: mid' → pre.length ≤ pre'.length → Sets pre' e' i t →
        (∀ x ∈ mid', ¬ Resets x i) → t + delays i mid' ≤ at' := by
  induction es using snoc_ind generalizing r with
  | h0 => simp [run] at h
  | h1 es x ih =>
    rw [run_snoc] at h
    have lift : ∀ r', (run es).sent = l ++ ⟨i, m, at'⟩ :: r' → ∃ pre e mid k post, es ++ [x] = pre ++ e :: (mid ++ .run k :: post) ∧
        Gives pre e i m ∧ (∀ x ∈ mid, ¬ Cancels x i ∧ ¬ Replaces x i) ∧
        (run (pre ++ e :: mid)).sent = l ∧ (run (pre ++ e :: mid)).now = at' ∧
        sentBy i (run pre) = l.filter (fun x => x.idx == i) ∧
        ∀ pre' e' mid' t, pre ++ e :: mid = pre' ++ e' :: mid' → pre.length ≤ pre'.length → Sets pre' e' i t →
          (∀ x ∈ mid', ¬ Resets x i) → t + delays i mid' ≤ at' := by
      intro r' h'
      obtain ⟨pre, e, mid, k, post, rfl, hr⟩ := ih r' h'
      exact ⟨pre, e, mid, k, post ++ [x], by simp, hr⟩
    rcases step_sent (run es) x with hs | ⟨k, i', m', d, rfl, h1, h2, h3, -, -⟩
    · rw [hs] at h; exact lift r h
    · rw [h3] at h
      rcases List.eq_nil_or_concat r with rfl | ⟨r', y, rfl⟩
      · have := List.append_inj' h rfl
        simp only [List.cons.injEq, Sent.mk.injEq, and_true] at this
        obtain ⟨rfl, rfl, rfl, rfl⟩ := this
        obtain ⟨pre, e, mid, rfl, hg, hm, hsb, ht⟩ := held es i' m' d h1
        exact ⟨pre, e, mid, k, [], by simp, hg, hm, rfl, rfl, hsb.symm, fun pre' e' mid' t he hl hs hn => by
          rw [← ht pre' e' mid' t he hl hs hn]; exact h2⟩
      · have : (run es).sent = l ++ ⟨i, m, at'⟩ :: r' := by
          have h' : (run es).sent ++ [⟨i', m', (run es).now⟩] = (l ++ ⟨i, m, at'⟩ :: r') ++ [y] := by rw [h]; simp
          exact (List.append_inj' h' rfl).1
        exact lift r' this

/-- Nothing is handed over before the time the timer was last set to, whatever was given to it and when, if no delay is negative. -/
theorem C61_not_early (pre mid : List Ev) (e x : Ev) (i m : Nat) (t at' : Int) (h : Sets pre e i t)
    (hr : ∀ x ∈ mid, ¬ Resets x i) (hd : ∀ n, .delay i n ∈ mid → 0 ≤ n)
    (hs : (run (pre ++ e :: (mid ++ [x]))).sent = (run (pre ++ e :: mid)).sent ++ [⟨i, m, at'⟩]) :
    t ≤ at' ∧ at' = (run (pre ++ e :: mid)).now := by
  rw [show pre ++ e :: (mid ++ [x]) = (pre ++ e :: mid) ++ [x] by simp, run_snoc] at hs
  rcases step_sent (run (pre ++ e :: mid)) x with h' | ⟨k, i', m', d, rfl, h1, h2, h3, -, -⟩
  · rw [h'] at hs
    have := congrArg List.length hs
    simp at this
  · rw [h3] at hs
    have := List.append_cancel_left hs
    simp only [List.cons.injEq, Sent.mk.injEq, and_true] at this
    obtain ⟨rfl, rfl, rfl⟩ := this
    obtain ⟨o, d', hs', ht⟩ := due_run h mid hr hd
    rw [h1] at hs'
    simp only [Option.some.injEq, Slot.mk.injEq] at hs'
    exact ⟨by omega, rfl⟩

/-- A timer hands over at most as many messages as it was given. -/
theorem C61_at_most (es : List Ev) (i : Nat) : (sentBy i (run es)).length ≤ given i es := by
  classical
  suffices h : (sentBy i (run es)).length + (if ∃ m d, (run es).slots[i]? = some ⟨some m, d⟩ then 1 else 0) ≤ given i es by omega
  induction es using snoc_ind with
  | h0 => simp [run, sentBy, given]
  | h1 es x ih =>
    have hl := len_run es
    have mono : given i es ≤ given i (es ++ [x]) := by
      unfold given
      rw [List.filter_append, List.length_append, adds_snoc]
      have : (if i < adds es then 1 else 0) ≤ (if i < adds es + (if isAdd x then 1 else 0) then 1 else 0) := by
        by_cases h1 : i < adds es
        · rw [if_pos h1, if_pos (by omega)]; exact Nat.le_refl _
        · rw [if_neg h1]; omega
      omega
    rw [run_snoc]
    rcases step_sent (run es) x with hs | ⟨k, i', m', d, rfl, h1, h2, h3, h4, -⟩
    · have e1 : sentBy i ((run es).step x) = sentBy i (run es) := by unfold sentBy; rw [hs]
      rw [e1]
      split
      case isFalse => omega
      case isTrue hx =>
        obtain ⟨m, d, hx⟩ := hx
        rcases slot_step (run es) x i m d hx with ⟨rfl, hi⟩ | ⟨rfl, hi⟩ | ⟨rfl, hi, -⟩ | ⟨d0, h0, -⟩
        · rw [hl] at hi
          have : given i (es ++ [.add d m]) = given i es + 1 := by
            unfold given
            rw [List.filter_append, List.length_append, adds_snoc]
            simp [isAdd, hi]
            omega
          omega
        · have : given i (es ++ [.update i d m]) = given i es + 1 := by
            unfold given
            rw [List.filter_append, List.length_append, adds_snoc]
            simp [isAdd]; omega
          omega
        · have : given i (es ++ [.setMsg i m]) = given i es + 1 := by
            unfold given
            rw [List.filter_append, List.length_append, adds_snoc]
            simp [isAdd]; omega
          omega
        · rw [if_pos ⟨m, d0, h0⟩] at ih
          omega
    · have e1 : (sentBy i ((run es).step (.run k))).length = (sentBy i (run es)).length + (if i' = i then 1 else 0) := by
        unfold sentBy
        rw [h3, List.filter_append, List.length_append]
        by_cases hii : i' = i <;> simp [hii]
      rw [e1]
      by_cases hii : i' = i
      · subst hii
        rw [if_pos ⟨m', d, h1⟩] at ih
        have : ¬ ∃ m d, ((run es).step (.run k)).slots[i']? = some ⟨some m, d⟩ := by
          rintro ⟨m, d1, hx⟩
          rw [h4, List.getElem?_set] at hx
          simp only [if_true] at hx
          split at hx <;> simp at hx
        rw [if_neg this]
        simp; omega
      · rw [h4, List.getElem?_set_ne hii]
        simp only [if_neg hii]
        omega

/-- What is given to a timer by `addTimer` or `updateTimer` is handed over, once all handlers have run, unless the timer was
cancelled or given another message. -/
theorem C61_all_sent (pre mid : List Ev) (e : Ev) (i m : Nat) (hg : Gives pre e i m)
    (hset : ∀ m', .setMsg i m' ∉ pre ++ e :: mid) (hc : ∀ x ∈ mid, ¬ Cancels x i ∧ ¬ Replaces x i)
    (hw : (run (pre ++ e :: mid)).waits = []) :
    ∃ a k b, mid = a ++ .run k :: b ∧
      (run (pre ++ e :: (a ++ [.run k]))).sent = (run (pre ++ e :: a)).sent ++ [⟨i, m, (run (pre ++ e :: a)).now⟩] := by
  rcases kept_run hg mid hc with ⟨d, hd⟩ | h
  · obtain ⟨w, hw', _⟩ := armed_run _ i hset m d hd
    rw [hw] at hw'; cases hw'
  · exact h

/-- With no further calls all handlers run in the end, if each is queued when its time has come and then run. -/
theorem C61_drains (es : List Ev) : ∃ fs, (∀ x ∈ fs, Quiet x) ∧ (run (es ++ fs)).waits = [] := by
  suffices h : ∀ n es, pending (run es) ≤ n → ∃ fs, (∀ x ∈ fs, Quiet x) ∧ (run (es ++ fs)).waits = [] from h _ es (Nat.le_refl _)
  intro n
  induction n with
  | zero =>
    intro es h
    refine ⟨[], by simp, ?_⟩
    rw [List.append_nil]
    cases hw : (run es).waits with
    | nil => rfl
    | cons w ws =>
      unfold pending at h
      rw [hw] at h
      simp at h
      split at h <;> omega
  | succ n ih =>
    intro es h
    cases hw : (run es).waits with
    | nil => exact ⟨[], by simp, by rw [List.append_nil, hw]⟩
    | cons w ws =>
      have h0 : (run es).waits[0]? = some w := by rw [hw]; rfl
      cases hq : w.queued with
      | true =>
        have hp := run_pending (run es) 0 w h0 hq
        obtain ⟨fs, hf, hfw⟩ := ih (es ++ [.run 0]) (by rw [run_snoc]; omega)
        refine ⟨.run 0 :: fs, ?_, by simpa using hfw⟩
        intro x hx
        rcases List.mem_cons.1 hx with rfl | hx
        · trivial
        · exact hf x hx
      | false =>
        have hp := fire_pending ((run es).step (.tick (w.time - (run es).now).toNat)) 0 w h0 hq (by
          simp only [S.step]; omega)
        have hp' : pending ((run es).step (.tick (w.time - (run es).now).toNat)) = pending (run es) := rfl
        obtain ⟨fs, hf, hfw⟩ := ih (es ++ [.tick (w.time - (run es).now).toNat] ++ [.fire 0]) (by
          rw [run_snoc, run_snoc]; omega)
        refine ⟨.tick (w.time - (run es).now).toNat :: .fire 0 :: fs, ?_, by simpa using hfw⟩
        intro x hx
        rcases List.mem_cons.1 hx with rfl | hx
        · trivial
        rcases List.mem_cons.1 hx with rfl | hx
        · trivial
        · exact hf x hx

/-- A handler whose time has come and that is queued, or a queued one that is run, is one step nearer to none being left. -/
theorem C61_progress (s : S) (k : Nat) (w : Wait) (h : s.waits[k]? = some w) :
    (w.queued = false → w.time ≤ s.now → pending (s.step (.fire k)) < pending s) ∧
      (w.queued = true → pending (s.step (.run k)) < pending s) :=
  ⟨fun hq ht => by have := fire_pending s k w h hq ht; omega, fun hq => by have := run_pending s k w h hq; omega⟩

end Timers
end Verif
