import Verif.Props.GlobalNumbers
/-! How a round ends when everybody confirms, and what a request leaves in the table. -/
namespace Verif
namespace Glob

theorem newRequest_run (g : Glob) (es : List Msg) (he : g.base.entered = true) (hx : g.base.executionMode = true)
    (ht : ∀ m ∈ es, Timing m) (hn : g.newRequest = false)
    (h : ∀ a x b, es = a ++ x :: b → ¬ NewAsk (run g a) x) :
    (run g es).newRequest = false := by
  induction es generalizing g with
  | nil => exact hn
  | cons m es ih =>
    obtain ⟨a, b, c⟩ := handle_live g m he hx (ht m (by simp))
    refine ih (handle g m) a b (fun x hx => ht x (by simp [hx])) ?_ (fun a x b e => h (m :: a) x b (by rw [e]; rfl))
    have hm := h [] m es rfl
    have hr : (received g m).newRequest = false := by
      cases hq : (received g m).newRequest
      · rfl
      · rcases (received_newRequest g m).1 hq with k | k
        · rw [hn] at k; cases k
        · exact absurd k hm
    cases step_spec g m he hx (ht m (by simp)) with
    | quiet ps hp hs hb hn' hst => rw [hn']; exact hr
    | ask ps hp ts e h0 hh hs hm' => rw [hh]; exact (poll_frame _ _).2.2.2.2.2.2
    | tell ps hp ts e h0 hh hs hv hq hn' hm' => rw [hh]; exact hr

/-- A round that everybody confirms ends with an announcement: if questions were asked at `p`, their round `n` is still open,
nobody has started a new request since, everybody taking part who matters for the next event has answered with the
number of the round, no federate that never grants has been triggered, and somebody still expects an event not later
than the one the round is about, then the time is announced. -/
theorem C58_confirmed (g0 : Glob) (h0 : Started g0) (pre : List Msg) (p : Msg) (mid : List Msg) (m : Msg)
    (ht : ∀ x ∈ (pre ++ p :: mid) ++ [m], Timing x) (hp : Prompting m)
    (hd : (run g0 (pre ++ p :: mid)).base.deps.isDependency m.source = true)
    (hall : AllAsking (run g0 ((pre ++ p :: mid) ++ [m])))
    (n : Int) (s : FedId) (hask : Asked n s (sent (run g0 pre) p))
    (hseq : (run g0 (pre ++ p :: mid)).base.seq = n) (hwait : (run g0 (pre ++ p :: mid)).state = .timeReq)
    (hnew : ∀ a x b, mid ++ [m] = a ++ x :: b → ¬ NewAsk (run g0 (pre ++ p :: a)) x)
    (hans : ∀ d ∈ (run g0 ((pre ++ p :: mid) ++ [m])).base.deps, d.dependency = true → d.dependent = true →
      d.timingVersion > 0 → d.next ≤ (run g0 (pre ++ p :: mid)).nextEvent + timeEpsilon → d.responseSequenceCounter = n)
    (htrig : ∀ d ∈ (run g0 ((pre ++ p :: mid) ++ [m])).base.deps, d.nonGranting = true → d.triggered = false)
    (hev : ∃ d ∈ (run g0 ((pre ++ p :: mid) ++ [m])).base.deps, d.nonGranting = false ∧
      d.Te ≤ (run g0 (pre ++ p :: mid)).nextEvent) :
    ∃ T s, Announced T s (sent (run g0 (pre ++ p :: mid)) m) := by
  have ht' : ∀ x ∈ pre ++ p :: mid, Timing x := fun x hx => ht x (List.mem_append.2 (Or.inl hx))
  have htm : Timing m := ht m (by simp)
  have htpre : ∀ x ∈ pre, Timing x := fun x hx => ht' x (by simp [hx])
  have htp : Timing p := ht' p (by simp)
  have htmid : ∀ x ∈ mid, Timing x := fun x hx => ht' x (by simp [hx])
  obtain ⟨lp1, lp2, lp3⟩ := run_live g0 pre h0.1 h0.2.1 htpre
  have hsp : ∀ l, run g0 (pre ++ p :: l) = run (handle (run g0 pre) p) l := by
    intro l; rw [run_append]; rfl
  -- after `p`
  have hfp := received_frame (run g0 pre) p htp
  have hP : (handle (run g0 pre) p).newRequest = false ∧ (handle (run g0 pre) p).base.seq = n := by
    cases step_spec (run g0 pre) p lp1 lp2 htp with
    | quiet ps hp' hs hb hn' hst => rw [hs] at hask; exact absurd hask (Asked.complaint hp' n s)
    | ask ps hp' ts e h0' hh hs hm' =>
      have hop := opens_ask hp' hfp.1 hh hs
      obtain ⟨_, T, hT⟩ := hop
      refine ⟨?_, ((hT n s).1 hask).1.symm⟩
      rw [hh]; exact (poll_frame _ _).2.2.2.2.2.2
    | tell ps hp' ts e h0' hh hs hv hq hn' hm' =>
      rw [hs, Asked.append] at hask
      rcases hask with k | k
      · exact absurd k (Asked.complaint hp' n s)
      · exact absurd k asked_tidings
  obtain ⟨lh1, lh2, lh3⟩ := handle_live (run g0 pre) p lp1 lp2 htp
  have hnr : (run g0 (pre ++ p :: mid)).newRequest = false := by
    rw [hsp]
    refine newRequest_run _ mid lh1 lh2 htmid hP.1 (fun a x b e => ?_)
    rw [← hsp]
    exact hnew a x (b ++ [m]) (by rw [e]; simp)
  obtain ⟨l1, l2, l3⟩ := run_live g0 _ h0.1 h0.2.1 ht'
  have hf := received_frame (run g0 (pre ++ p :: mid)) m htm
  have hh := handle_update (g := run g0 (pre ++ p :: mid)) l1 hp hd
  have hrec : (received (run g0 (pre ++ p :: mid)) m).newRequest = false := by
    cases hq : (received (run g0 (pre ++ p :: mid)) m).newRequest
    · rfl
    · rcases (received_newRequest _ m).1 hq with k | k
      · rw [hnr] at k; cases k
      · exact absurd k (hnew mid m [] rfl)
  generalize hG : run g0 (pre ++ p :: mid) = G at *
  have hrun : run g0 ((pre ++ p :: mid) ++ [m]) = handle G m := by rw [run_snoc, hG]
  rw [hrun] at hall hans htrig hev
  obtain ⟨a1, a2, d0, a3, a4, a5, a6, a7⟩ := hall
  -- the table the decision looks at
  have hback : ∀ d ∈ (received G m).base.deps, ∃ x ∈ (handle G m).base.deps,
      x = d ∨ ∃ k, x = { d with updateRequested := true, grantedIteration := k } := by
    intro d hd
    cases step_spec G m l1 l2 htm with
    | quiet ps hp' hs hb hn' hst => rw [hb]; exact ⟨d, hd, Or.inl rfl⟩
    | ask ps hp' ts e h0' hh' hs hm' =>
      rw [hh']
      obtain ⟨x, hx, k⟩ := poll_mem' { received G m with state := .timeReq, minTime := ts, nextEvent := e } (trigTime e) hd
      exact ⟨x, hx, k.imp id (fun h => ⟨_, h⟩)⟩
    | tell ps hp' ts e h0' hh' hs hv hq hn' hm' => rw [hh']; exact ⟨d, hd, Or.inl rfl⟩
  have hforth : ∀ x ∈ (handle G m).base.deps, ∃ d ∈ (received G m).base.deps,
      x = d ∨ ∃ k, x = { d with updateRequested := true, grantedIteration := k } := by
    intro x hx
    cases step_spec G m l1 l2 htm with
    | quiet ps hp' hs hb hn' hst => rw [hb] at hx; exact ⟨x, hx, Or.inl rfl⟩
    | ask ps hp' ts e h0' hh' hs hm' =>
      rw [hh'] at hx
      obtain ⟨d, hd, k⟩ := poll_mem _ _ hx
      exact ⟨d, hd, k.imp id (fun h => ⟨_, h⟩)⟩
    | tell ps hp' ts e h0' hh' hs hv hq hn' hm' => rw [hh'] at hx; exact ⟨x, hx, Or.inl rfl⟩
  -- what is said about the table afterwards holds of the table the decision looks at
  have hans' : ∀ d ∈ (received G m).base.deps, d.dependency = true → d.dependent = true → d.timingVersion > 0 →
      d.next ≤ G.nextEvent + timeEpsilon → d.responseSequenceCounter = n := by
    intro d hd
    obtain ⟨x, hx, hk⟩ := hback d hd
    have := hans x hx
    rcases hk with rfl | ⟨k, rfl⟩ <;> exact this
  have htrig' : ∀ d ∈ (received G m).base.deps, d.nonGranting = true → d.triggered = false := by
    intro d hd
    obtain ⟨x, hx, hk⟩ := hback d hd
    have := htrig x hx
    rcases hk with rfl | ⟨k, rfl⟩ <;> exact this
  have hsane : ∀ d ∈ (received G m).base.deps, d.next ≤ d.Te := by
    intro d hd
    obtain ⟨x, hx, hk⟩ := hback d hd
    have := a2 x hx
    rcases hk with rfl | ⟨k, rfl⟩ <;> exact this
  have hev' : ∃ d ∈ (received G m).base.deps, d.nonGranting = false ∧ d.Te ≤ G.nextEvent := by
    obtain ⟨x, hx, k1, k2⟩ := hev
    obtain ⟨d, hd, rfl | ⟨k, rfl⟩⟩ := hforth x hx
    · exact ⟨x, hd, k1, k2⟩
    · exact ⟨d, hd, k1, k2⟩
  have hself : (handle G m).base.self = (received G m).base.self := by
    cases step_spec G m l1 l2 htm with
    | quiet ps hp' hs hb hn' hst => rw [hb]
    | ask ps hp' ts e h0' hh' hs hm' => rw [hh']; exact (poll_frame _ _).2.2.2.1
    | tell ps hp' ts e h0' hh' hs hv hq hn' hm' => rw [hh']; rfl
  have hne : cTerm < maxVal := by decide
  have hasking : Asking (received G m).stream.state := by
    refine stream_asking _ _ _ (fun d hd => ?_) ?_
    · obtain ⟨x, hx, hk⟩ := hback d hd
      have := a1 x hx
      rcases hk with rfl | ⟨k, rfl⟩ <;> exact this
    · rw [hself] at a6
      obtain ⟨d, hd, rfl | ⟨k, rfl⟩⟩ := hforth d0 a3
      · exact ⟨d0, hd, a4, a5, a6, by omega⟩
      · exact ⟨d, hd, a4, a5, a6, by dsimp only at a7; omega⟩
  have hst : (received G m).state = .timeReq := hf.2.2.2.2.1.trans hwait
  have hver : (received G m).base.deps.verifySeq (trigTime (received G m).nextEvent) (received G m).base.seq = true := by
    unfold Deps.verifySeq
    rw [List.all_eq_true]
    intro d hd
    unfold Deps.checkSeq
    by_cases c1 : d.dependency = true
    · by_cases c2 : d.dependent = true
      · by_cases c3 : d.timingVersion > 0
        · by_cases c4 : d.next ≤ trigTime (received G m).nextEvent
          · have := hans' d hd c1 c2 c3 (by
              have := trigTime_le (received G m).nextEvent
              rw [hf.2.2.2.2.2] at this c4
              omega)
            rw [hf.1, hseq, this]; simp
          · have : d.next > trigTime (received G m).nextEvent := by omega
            simp [this]
        · have : d.timingVersion ≤ 0 := by omega
          simp [this]
      · simp [c2]
    · simp [c1]
  have sp := checkForTriggered_spec (received G m).base.deps (trigTime (received G m).nextEvent) (false, maxVal)
  dsimp only at sp
  obtain ⟨_, _, sp⟩ := sp
  have hle : (checkForTriggered (received G m).base.deps (trigTime (received G m).nextEvent)).2 ≤ (received G m).nextEvent := by
    obtain ⟨d, hd, k1, k2⟩ := hev'
    rcases sp d hd with ⟨j, _⟩ | j
    · rw [k1] at j; cases j
    · rw [hf.2.2.2.2.2]
      rw [hf.2.2.2.2.2] at j
      exact Int.le_trans j k2
  have htr : (checkForTriggered (received G m).base.deps (trigTime (received G m).nextEvent)).1 = false := by
    have key : ∀ (ds : Deps) (t : Time) (acc : Bool × Time), acc.1 = false →
        (∀ d ∈ ds, d.nonGranting = true → d.triggered = false) →
        (ds.foldl (fun (acc : Bool × Time) d =>
          if d.next > t then (acc.1, if d.Te < acc.2 then d.Te else acc.2)
          else if d.nonGranting then (acc.1 || d.triggered, acc.2)
          else (acc.1, if d.Te < acc.2 then d.Te else acc.2)) acc).1 = false := by
      intro ds t
      induction ds with
      | nil => intro acc h _; exact h
      | cons d ds ih =>
        intro acc h k
        rw [List.foldl_cons]
        refine ih _ ?_ (fun x hx => k x (by simp [hx]))
        split
        · exact h
        · split
          · rename_i hng
            rw [h, k d (by simp) hng]; rfl
          · exact h
    exact key _ _ _ rfl htrig'
  have hfin : handle G m = { announce (received G m) (trigTime (checkForTriggered (received G m).base.deps (trigTime (received G m).nextEvent)).2) with
      state := .granted, minTime := (received G m).stream.Te, nextEvent := (received G m).stream.Te } := by
    rw [hh]
    unfold updateTimeFactors
    have hx : (received G m).base.executionMode = true := hf.2.2.1.trans l2
    have n1 : (received G m).stream.state ≠ .granted := by
      intro k; rw [k] at hasking; rcases hasking with j | j | j <;> cases j
    simp only [hx, Bool.true_eq_false, false_and, if_false]
    have hasking' := hasking
    unfold Asking at hasking'
    rw [if_neg n1, if_pos hasking', if_neg (by rw [hst]; exact fun k => by cases k), if_pos hst]
    unfold collect
    dsimp only
    rw [if_pos hver, if_neg]
    · rfl
    · simp [htr, hle, hrec]
  cases step_spec G m l1 l2 htm with
  | quiet ps hp' hs hb hn' hst' =>
    have : (handle G m).base.seq = incSeq (received G m).base.seq := by rw [hfin]; rfl
    rw [hb] at this
    exact absurd this.symm (incSeq_ne _)
  | ask ps hp' ts e h0' hh' hs hm' =>
    have : (handle G m).state = .timeReq := by rw [hh']; exact (poll_frame _ _).2.2.2.2.1
    rw [hfin] at this; cases this
  | tell ps hp' ts e h0' hh' hs hv hq hn' hm' =>
    have hsome : ∃ d ∈ (received G m).base.deps, d.next < cTerm := by
      obtain ⟨d, hd, rfl | ⟨k, rfl⟩⟩ := hforth d0 a3
      · exact ⟨d0, hd, a7⟩
      · exact ⟨d, hd, a7⟩
    obtain ⟨d, hd', k1, k2⟩ := someone_concerned hsane hsome hm'
    refine ⟨trigTime e, d.fedID, ?_⟩
    rw [hs, Announced.append]
    exact Or.inr (announced_tidings.2 ⟨rfl, d, hd', rfl, k1, k2⟩)

/-! ## Records -/

theorem find_modify {ds : Deps} {g : FedId} {d : DepInfo} {f : DepInfo → DepInfo} (h : ds.find g = some d)
    (hf : (f d).fedID = d.fedID) : (ds.modify g f).find g = some (f d) := by
  unfold Deps.find at h
  split at h
  · cases h
  · rename_i e rest he
    split at h
    · rename_i hg
      cases h
      unfold Deps.modify
      rw [he]
      dsimp only
      rw [if_pos hg]
      unfold Deps.find
      rw [fromLB_before_cons (hf.trans hg)]
      dsimp only
      rw [if_pos (hf.trans hg)]
    · cases h

theorem find_map {ds : Deps} {g : FedId} {f : DepInfo → DepInfo} (hf : ∀ x, (f x).fedID = x.fedID) :
    Deps.find (ds.map f) g = (ds.find g).map f := by
  have e : Deps.fromLB (ds.map f) g = (Deps.fromLB ds g).map f := by
    unfold Deps.fromLB
    induction ds with
    | nil => rfl
    | cons x l ih =>
      simp only [List.map_cons, List.dropWhile_cons, hf]
      split
      · exact ih
      · rfl
  unfold Deps.find
  rw [e]
  cases Deps.fromLB ds g with
  | nil => rfl
  | cons x l =>
    simp only [List.map_cons, hf]
    split <;> rfl

/-- A time request of a federate the broker depends on is recorded as it is: next time, next event, whether it was
triggered, and the number it carries back. -/
theorem C58_record_own (g0 : Glob) (h0 : Started g0) (es : List Msg) (m : Msg) (ht : ∀ x ∈ es ++ [m], Timing x)
    (ha : m.action = .timeRequest) (hd : (run g0 es).base.deps.isDependency m.source = true) :
    ∃ x, (run g0 (es ++ [m])).base.deps.find m.source = some x ∧ Asking x.state ∧ x.next = m.actionTime ∧ x.Te = m.Te ∧
      x.triggered = m.destinationTarget ∧ (m.nonGranting = true → x.nonGranting = true) ∧
      (x.connection ≠ .self → x.responseSequenceCounter = m.extraDestData) := by
  have ht' : ∀ x ∈ es, Timing x := fun x hx => ht x (by simp [hx])
  have htm : Timing m := ht m (by simp)
  obtain ⟨l1, l2, l3⟩ := run_live g0 es h0.1 h0.2.1 ht'
  have hrec : ∃ x, (received (run g0 es) m).base.deps.find m.source = some x ∧ Asking x.state ∧ x.next = m.actionTime ∧ x.Te = m.Te ∧
      x.triggered = m.destinationTarget ∧ (m.nonGranting = true → x.nonGranting = true) ∧
      (x.connection ≠ .self → x.responseSequenceCounter = m.extraDestData) := by
    obtain ⟨d, h1, h2⟩ := isDependency_find hd
    have e : (received (run g0 es) m).base.deps = (Deps.updateTime (run g0 es).base.deps m).1 := by
      have : received (run g0 es) m = ((run g0 es).processTimeMessage m).1 := by unfold received; rw [ha]
      rw [this]
      show ((run g0 es).base.processBase m).1.deps = _
      rw [(processBase_deps _ _).1]
      unfold preTable; rw [ha]
    rw [e]
    unfold Deps.updateTime
    rw [h1]
    simp only [h2, Bool.not_true, Bool.false_eq_true, if_false]
    refine ⟨_, find_modify h1 (Deps.process_fedID _ _), ?_⟩
    unfold DepInfo.process
    rw [ha]
    refine ⟨?_, rfl, rfl, rfl, ?_, ?_⟩
    · unfold Asking
      dsimp only
      repeat' split
      all_goals simp
    · intro h; simp [h]
    · intro h
      dsimp only at h ⊢
      rw [if_neg h]
  rw [run_snoc]
  cases step_spec (run g0 es) m l1 l2 htm with
  | quiet ps hp hs hb hn hst => rw [hb]; exact hrec
  | ask ps hp ts e h0 hh hs hm =>
    rw [hh]
    obtain ⟨x, h1, h2⟩ := hrec
    unfold poll sendTimeUpdateRequest
    dsimp only
    rw [find_map (by intro y; split <;> rfl), h1]
    refine ⟨_, rfl, ?_⟩
    by_cases hc : concerned (trigTime e) x = true
    · simp only [hc, if_true]; exact h2
    · simp only [hc, if_false]; exact h2
  | tell ps hp ts e h0 hh hs hv hq hn hm => rw [hh]; exact hrec

end Glob
end Verif
