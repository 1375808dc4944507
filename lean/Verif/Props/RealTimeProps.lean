import Verif.Props.RealTimeSpec
/-!
# C63 Real-time federates

A real-time federate returns neither too early nor too late by the clock, whatever the rest of the federation does.
-/
namespace Verif
namespace RealTime

theorem snoc_ind {α : Type} {P : List α → Prop} (h0 : P []) (h1 : ∀ l x, P l → P (l ++ [x])) (l : List α) : P l := by
  rw [← List.reverse_reverse l]
  induction l.reverse with
  | nil => simpa using h0
  | cons x r ih => rw [List.reverse_cons]; exact h1 _ _ ih

theorem run_snoc (c : Cfg) (es : List Ev) (x : Ev) : run c (es ++ [x]) = (run c es).step c x := by
  simp [run, List.foldl_append]

theorem sleep_eq (c : Cfg) (s : S) : ∃ w, s.sleep c = { s with now := w } ∧ s.now ≤ w ∧
    c.start + s.granted - c.lead - w ≤ 5000000 := by
  unfold S.sleep
  simp only
  split
  · split
    · exact ⟨_, rfl, by omega, by omega⟩
    · exact ⟨s.now, rfl, Int.le_refl _, by omega⟩
  · exact ⟨s.now, rfl, Int.le_refl _, by omega⟩

/-- what holds after every history -/
structure Ok (c : Cfg) (s : S) : Prop where
  /-- a force is queued only when it is due -/
  due : ∀ t, .force t ∈ s.queue → ∃ l, c.lag = some l ∧ c.start + t + l ≤ s.now
  timer : ∀ t d, s.timer = some (t, d) → s.call = some t ∧ ∃ l, c.lag = some l ∧ d = c.start + t + l
  /-- a call under way, for a time not yet granted, will be forced -/
  armed : ∀ n l, s.call = some n → c.lag = some l → s.granted ≤ n → s.timer = some (n, c.start + n + l) ∨ .force n ∈ s.queue
  early : ∀ r ∈ s.rets, c.start + r.granted - c.lead - r.clock ≤ 5000000
  forced : ∀ r ∈ s.rets, r.forced = true → ∃ l, c.lag = some l ∧ c.start + r.granted + l ≤ r.clock
  order : (s.rets.map (·.granted)).Pairwise (· ≤ ·)
  upto : ∀ r ∈ s.rets, r.granted ≤ s.granted ∧ r.clock ≤ s.now

theorem ok_ret {c : Cfg} {s : S} (h : Ok c s) (n g : Int) (q : List Cmd) (f : Bool) (hg : s.granted ≤ g)
    (hq : ∀ t, .force t ∈ q → .force t ∈ s.queue)
    (hf : f = true → ∃ l, c.lag = some l ∧ c.start + g + l ≤ s.now) :
    Ok c (S.ret c { s with queue := q, granted := g } n f) := by
  unfold S.ret
  simp only
  obtain ⟨w, hw, hle, he⟩ := sleep_eq c { s with queue := q, granted := g, requesting := false, call := none, timer := none }
  rw [hw]
  simp only at hle he
  refine ⟨?_, by simp, by simp, ?_, ?_, ?_, ?_⟩
  · intro t ht
    obtain ⟨l, hl, hd⟩ := h.due t (hq t ht)
    exact ⟨l, hl, by simp only; omega⟩
  · intro r hr
    rcases List.mem_append.1 hr with hr | hr
    · exact h.early r hr
    · rw [List.mem_singleton.1 hr]; exact he
  · intro r hr hrf
    rcases List.mem_append.1 hr with hr | hr
    · exact h.forced r hr hrf
    · rw [List.mem_singleton.1 hr] at hrf ⊢
      obtain ⟨l, hl, hd⟩ := hf hrf
      exact ⟨l, hl, by simp only; omega⟩
  · simp only [List.map_append, List.map_cons, List.map_nil, List.pairwise_append]
    refine ⟨h.order, by simp, ?_⟩
    intro a ha b hb
    obtain ⟨r, hr, rfl⟩ := List.mem_map.1 ha
    rw [List.mem_singleton.1 hb]
    exact Int.le_trans (h.upto r hr).1 hg
  · intro r hr
    rcases List.mem_append.1 hr with hr | hr
    · exact ⟨Int.le_trans (h.upto r hr).1 hg, Int.le_trans (h.upto r hr).2 hle⟩
    · rw [List.mem_singleton.1 hr]; exact ⟨Int.le_refl _, Int.le_refl _⟩

theorem ok_step {c : Cfg} {s : S} (h : Ok c s) (x : Ev) : Ok c (s.step c x) := by
  cases x with
  | tick d =>
    refine ⟨?_, h.timer, h.armed, h.early, h.forced, h.order, ?_⟩
    · intro t ht
      obtain ⟨l, hl, hd⟩ := h.due t ht
      exact ⟨l, hl, by simp only [S.step]; omega⟩
    · intro r hr
      have := h.upto r hr
      exact ⟨this.1, by simp only [S.step]; omega⟩
  | coord t =>
    refine ⟨?_, h.timer, ?_, h.early, h.forced, h.order, h.upto⟩
    · intro t' ht
      simp only [S.step, List.mem_append, List.mem_singleton, reduceCtorEq, or_false] at ht
      exact h.due t' ht
    · intro n l hn hl hg
      rcases h.armed n l hn hl hg with h' | h'
      · exact .inl h'
      · exact .inr (List.mem_append_left _ h')
  | request n =>
    simp only [S.step, S.request]
    split
    · exact h
    · rename_i hc
      split
      · rename_i hl
        refine ⟨?_, ?_, by simp [hl], h.early, h.forced, h.order, h.upto⟩
        · intro t ht
          simp only [List.mem_append, List.mem_singleton, reduceCtorEq, or_false] at ht
          exact h.due t ht
        · intro t d ht
          have := (h.timer t d ht).1
          rw [hc] at this; cases this
      · rename_i l hl
        split
        · rename_i hlead
          refine ⟨?_, ?_, ?_, h.early, h.forced, h.order, h.upto⟩
          · intro t ht
            simp only [List.mem_append, List.mem_singleton, reduceCtorEq, or_false] at ht
            exact h.due t ht
          · intro t d ht
            simp only [Option.some.injEq, Prod.mk.injEq] at ht
            obtain ⟨rfl, rfl⟩ := ht
            exact ⟨rfl, l, hl, by omega⟩
          · intro m l' hm hl' _
            rw [hl] at hl'
            simp only [Option.some.injEq] at hm hl'
            subst hm; subst hl'
            left
            simp only [Option.some.injEq, Prod.mk.injEq, true_and]
            omega
        · rename_i hlead
          refine ⟨?_, ?_, ?_, h.early, h.forced, h.order, h.upto⟩
          · intro t ht
            simp only [List.mem_append, List.mem_singleton, reduceCtorEq, or_false, Cmd.force.injEq] at ht
            rcases ht with ht | rfl
            · exact h.due t ht
            · try simp only at hlead
              exact ⟨l, hl, by show _ ≤ s.now; omega⟩
          · intro t d ht
            have := (h.timer t d ht).1
            rw [hc] at this; cases this
          · intro m l' hm hl' _
            simp only [Option.some.injEq] at hm
            subst hm
            right; simp
  | fire =>
    simp only [S.step, S.fire]
    split
    · rename_i t d ht
      split
      · rename_i hd
        obtain ⟨hcall, l, hl, rfl⟩ := h.timer t d ht
        refine ⟨?_, by simp, ?_, h.early, h.forced, h.order, h.upto⟩
        · intro t' ht'
          simp only [List.mem_append, List.mem_singleton, Cmd.force.injEq] at ht'
          rcases ht' with ht' | rfl
          · exact h.due t' ht'
          · exact ⟨l, hl, hd⟩
        · intro n l' hn hl' _
          simp only at hn
          rw [hcall] at hn
          cases hn
          right; simp
      · exact h
    · exact h
  | process =>
    simp only [S.step, S.process]
    split
    · rename_i n cmd q hcall hq
      have hsub : ∀ t, Cmd.force t ∈ q → Cmd.force t ∈ s.queue := fun t ht => by rw [hq]; exact List.mem_cons_of_mem _ ht
      have drop : (∀ n, cmd = .force n → n < s.granted) → ∀ b, Ok c { s with queue := q, requesting := b } := by
        intro hne b
        refine ⟨fun t ht => h.due t (hsub t ht), h.timer, ?_, h.early, h.forced, h.order, h.upto⟩
        intro m l hm hl hg
        rcases h.armed m l hm hl hg with h' | h'
        · exact .inl h'
        · right
          rw [hq] at h'
          rcases List.mem_cons.1 h' with h' | h'
          · have := hne m h'.symm
            simp only at hg
            omega
          · exact h'
      split
      · exact drop (by intro n hn; cases hn) true
      · rename_i t
        split
        · exact ok_ret h n (max s.granted t) q false (Int.le_max_left _ _) hsub (by simp)
        · exact drop (by intro n hn; cases hn) s.requesting
      · rename_i t
        split
        · rename_i hlt
          exact drop (by intro n hn; cases hn; exact hlt) s.requesting
        · rename_i hlt
          try simp only at hlt
          obtain ⟨l, hl, hd⟩ := h.due t (by rw [hq]; exact List.mem_cons_self)
          have hg : (if s.granted < t then t else s.granted) = t := by split <;> omega
          simp only [hg]
          exact ok_ret h n t q true (by omega) hsub (fun _ => ⟨l, hl, hd⟩)
    · exact h

theorem ok (c : Cfg) (es : List Ev) : Ok c (run c es) := by
  induction es using snoc_ind with
  | h0 => exact ⟨by simp [run], by simp [run], by simp [run], by simp [run], by simp [run], by simp [run], by simp [run]⟩
  | h1 es x ih => rw [run_snoc]; exact ok_step ih x

/-- No call returns more than five milliseconds earlier than `lead` before the time granted, by the clock since executing mode
was entered. -/
theorem C63_not_early (c : Cfg) (es : List Ev) (r : Ret) (h : r ∈ (run c es).rets) :
    c.start + r.granted - c.lead - 5000000 ≤ r.clock := by
  have := (ok c es).early r h
  omega

/-- A time is forced only when the clock is `lag` past it, and never if there is no limit to the lag. -/
theorem C63_forced (c : Cfg) (es : List Ev) (r : Ret) (h : r ∈ (run c es).rets) (hf : r.forced = true) :
    ∃ l, c.lag = some l ∧ c.start + r.granted + l ≤ r.clock := (ok c es).forced r h hf

/-- The times returned never go back. -/
theorem C63_order (c : Cfg) (es : List Ev) : ((run c es).rets.map (·.granted)).Pairwise (· ≤ ·) := (ok c es).order

theorem process_call_none (c : Cfg) (s : S) (h : s.call = none) : (s.step c .process).call = none := by
  simp only [S.step, S.process]
  rw [h]
  exact h

theorem process_many (c : Cfg) (s : S) (n : Nat) (h : s.call = none) :
    ((List.replicate n Ev.process).foldl (S.step c) s).call = none := by
  induction n generalizing s with
  | zero => exact h
  | succ n ih => rw [List.replicate_succ, List.foldl_cons]; exact ih _ (process_call_none c s h)

/-- a queued force ends the call -/
theorem force_ends (c : Cfg) (s : S) (n : Int) (q : Nat) (hc : s.call = some n) (hg : s.granted ≤ n) (hf : .force n ∈ s.queue)
    (hq : s.queue.length ≤ q) : ((List.replicate q Ev.process).foldl (S.step c) s).call = none := by
  induction q generalizing s with
  | zero =>
    have : s.queue = [] := List.eq_nil_of_length_eq_zero (by omega)
    rw [this] at hf; cases hf
  | succ q ih =>
    rw [List.replicate_succ, List.foldl_cons]
    cases hqq : s.queue with
    | nil => rw [hqq] at hf; cases hf
    | cons cmd cs =>
      rw [hqq] at hf hq
      simp only [List.length_cons] at hq
      have ret : ∀ (u : S) f, (u.ret c n f).call = none := by
        intro u f
        unfold S.ret
        simp only
        obtain ⟨w, hw, -, -⟩ := sleep_eq c { u with requesting := false, call := none, timer := none }
        rw [hw]
      simp only [S.step, S.process, hc, hqq]
      cases cmd with
      | req m => exact ih _ rfl hg (by simpa using hf) (by simp only; omega)
      | grant t =>
        simp only
        split
        · exact process_many c _ q (ret _ _)
        · exact ih _ (by simp [hc]) hg (by simpa using hf) (by simp only; omega)
      | force t =>
        simp only
        split
        · rename_i hlt
          refine ih _ (by simp [hc]) hg ?_ (by simp only; omega)
          simp only [List.mem_cons, Cmd.force.injEq] at hf
          rcases hf with rfl | hf
          · omega
          · exact hf
        · exact process_many c _ q (ret _ _)

/-- Whatever the rest of the federation does, a call for a time not yet granted returns once the clock is `lag` past that time, as
soon as the timer has fired and the commands already queued have been processed. -/
theorem C63_not_late (c : Cfg) (es : List Ev) (n l : Int) (hc : (run c es).call = some n) (hl : c.lag = some l)
    (hg : (run c es).granted ≤ n) (ht : c.start + n + l ≤ (run c es).now) :
    (run c (es ++ .fire :: List.replicate ((run c es).queue.length + 1) .process)).call = none := by
  have h := ok c es
  have e : run c (es ++ .fire :: List.replicate ((run c es).queue.length + 1) .process) =
      (List.replicate ((run c es).queue.length + 1) Ev.process).foldl (S.step c) ((run c es).step c .fire) := by
    simp [run, List.foldl_append]
  rw [e]
  rcases h.armed n l hc hl hg with h' | h'
  · have : (run c es).step c .fire = { run c es with timer := none, queue := (run c es).queue ++ [.force n] } := by
      simp only [S.step, S.fire, h']
      rw [if_pos ht]
    rw [this]
    exact force_ends c _ n _ hc hg (by simp) (by simp)
  · have : ((run c es).step c .fire).call = some n ∧ (run c es).granted = ((run c es).step c .fire).granted ∧
        .force n ∈ ((run c es).step c .fire).queue ∧ ((run c es).step c .fire).queue.length ≤ (run c es).queue.length + 1 := by
      simp only [S.step, S.fire]
      split
      · split
        · exact ⟨hc, rfl, List.mem_append_left _ h', by simp⟩
        · exact ⟨hc, rfl, h', by omega⟩
      · exact ⟨hc, rfl, h', by omega⟩
    exact force_ends c _ n _ this.1 (this.2.1 ▸ hg) this.2.2.1 this.2.2.2

/-- what the forces queued have to do with the call, if none is left over -/
structure Fresh (s : S) : Prop where
  queue : ∀ n t, s.call = some n → .force t ∈ s.queue → t = n
  timer : ∀ t d, s.timer = some (t, d) → s.call = some t
  rets : ∀ r ∈ s.rets, r.forced = true → r.granted = r.asked

theorem fresh_ret {c : Cfg} {s : S} (h : Fresh s) (n g : Int) (q : List Cmd) (f : Bool) (hf : f = true → g = n) :
    Fresh (S.ret c { s with queue := q, granted := g } n f) := by
  unfold S.ret
  simp only
  obtain ⟨w, hw, -, -⟩ := sleep_eq c { s with queue := q, granted := g, requesting := false, call := none, timer := none }
  rw [hw]
  refine ⟨by simp, by simp, ?_⟩
  intro r hr hrf
  rcases List.mem_append.1 hr with hr | hr
  · exact h.rets r hr hrf
  · rw [List.mem_singleton.1 hr] at hrf ⊢
    exact hf hrf

theorem fresh (c : Cfg) (es : List Ev) (h : Clean c es) : Fresh (run c es) := by
  induction es using snoc_ind with
  | h0 => exact ⟨by simp [run], by simp [run], by simp [run]⟩
  | h1 es x ih =>
    have ih := ih fun a n b he => h a n (b ++ [x]) (by rw [he]; simp)
    have hx : ∀ n, x = .request n → ∀ t, .force t ∉ (run c es).queue := fun n hn => h es n [] (by rw [hn])
    rw [run_snoc]
    generalize run c es = s at ih hx
    cases x with
    | tick d => exact ⟨ih.queue, ih.timer, ih.rets⟩
    | coord t =>
      refine ⟨?_, ih.timer, ih.rets⟩
      intro n t' hn ht
      simp only [S.step, List.mem_append, List.mem_singleton, reduceCtorEq, or_false] at ht
      exact ih.queue n t' hn ht
    | fire =>
      simp only [S.step, S.fire]
      split
      · rename_i t d ht
        split
        · refine ⟨?_, by simp, ih.rets⟩
          intro n t' hn ht'
          simp only [List.mem_append, List.mem_singleton, Cmd.force.injEq] at ht'
          rcases ht' with ht' | rfl
          · exact ih.queue n t' hn ht'
          · have := ih.timer t' d ht
            simp only at hn
            rw [hn] at this
            exact (Option.some.inj this).symm
        · exact ih
      · exact ih
    | request n =>
      have hx := hx n rfl
      simp only [S.step, S.request]
      split
      · exact ih
      · rename_i hc
        have q1 : ∀ m t, (some n : Option Int) = some m → .force t ∈ s.queue ++ [.req n] → t = m := by
          intro m t _ ht
          simp only [List.mem_append, List.mem_singleton, reduceCtorEq, or_false] at ht
          exact absurd ht (hx t)
        have t1 : ∀ t d, s.timer = some (t, d) → (some n : Option Int) = some t := by
          intro t d ht
          have := ih.timer t d ht
          rw [hc] at this; cases this
        split
        · exact ⟨q1, t1, ih.rets⟩
        · split
          · refine ⟨q1, ?_, ih.rets⟩
            intro t d ht
            simp only [Option.some.injEq, Prod.mk.injEq] at ht
            rw [ht.1]
          · refine ⟨?_, t1, ih.rets⟩
            intro m t hm ht
            simp only at hm
            rw [List.mem_append] at ht
            rcases ht with ht | ht
            · exact q1 m t hm ht
            · simp only [List.mem_singleton, Cmd.force.injEq] at ht
              rw [ht]; exact Option.some.inj hm
    | process =>
      simp only [S.step, S.process]
      split
      · rename_i n cmd q hcall hq
        have keep : ∀ b, Fresh { s with queue := q, requesting := b } := fun b =>
          ⟨fun m t hm ht => ih.queue m t hm (by rw [hq]; exact List.mem_cons_of_mem _ ht), ih.timer, ih.rets⟩
        split
        · exact keep true
        · rename_i t
          split
          · exact fresh_ret ih n (max s.granted t) q false (by simp)
          · exact keep s.requesting
        · rename_i t
          split
          · exact keep s.requesting
          · rename_i hlt
            try simp only at hlt
            have ht := ih.queue n t hcall (by rw [hq]; exact List.mem_cons_self)
            exact fresh_ret ih n _ q true (fun _ => by split <;> omega)
      · exact ih

/-- A forced grant is for the time that was asked for, if no forced grant was left over when the call was made. -/
theorem C63_forced_asked (c : Cfg) (es : List Ev) (h : Clean c es) (r : Ret) (hr : r ∈ (run c es).rets) (hf : r.forced = true) :
    r.granted = r.asked := (fresh c es h).rets r hr hf

/-- A grant of the coordinator and the timer at the same moment: the forced grant is left in the queue, and the next call returns
the same time again, at once, without having asked for anything (src/helics/core/TimeCoordinatorProcessing.cpp:265-273 lets a
force for the time already granted through). -/
theorem C63_left_over :
    ((run ⟨0, some 0, 0⟩ [.request 10, .tick 10, .process, .coord 10, .fire, .process, .request 20, .process]).rets.map
      fun r => (r.asked, r.granted, r.clock)) = [(10, 10, 10), (20, 10, 10)] ∧
    Cmd.req 20 ∈ (run ⟨0, some 0, 0⟩ [.request 10, .tick 10, .process, .coord 10, .fire, .process, .request 20, .process]).queue := by
  decide +kernel

end RealTime
end Verif
