import Verif.Lemmas.GlobalLive
/-!
# C58: the master clock

Theorems about a broker started with the `global_time` option, for every history of timing commands.
-/
namespace Verif
namespace Glob

/-- An announced time is confirmed by everybody it could matter to: since the last round of questions, opened by `p` with
the number `n`, nothing was sent, nobody started a new request, and everybody taking part whose next time is not after
the announced time has answered with the number `n`; and nobody's next event lies before the announced time (up to one
nanosecond), federates that never grant excepted if nothing has triggered them. -/
theorem C58_announce (g0 : Glob) (h0 : Started g0) (hq : 0 ≤ g0.base.seq) (es : List Msg) (m : Msg)
    (ht : ∀ x ∈ es ++ [m], Timing x) (hr : NoReuse g0 es) (T : Time) (s : FedId)
    (ha : Announced T s (sent (run g0 es) m)) :
    (∃ n pre p mid, es = pre ++ p :: mid ∧ Opens (run g0 pre) p n ∧
      (∀ a x b, mid = a ++ x :: b → Nothing (sent (run g0 (pre ++ p :: a)) x)) ∧
      (∀ a x b, mid ++ [m] = a ++ x :: b → ¬ NewAsk (run g0 (pre ++ p :: a)) x) ∧
      ∀ d ∈ (run g0 (es ++ [m])).base.deps, TakesPart d → d.next ≤ T →
        ∃ a ∈ mid ++ [m], a.source = d.fedID ∧ Answers n a) ∧
    ∀ d ∈ (run g0 (es ++ [m])).base.deps, (d.nonGranting = true ∧ d.triggered = false) ∨ T ≤ d.Te + timeEpsilon := by
  have ht' : ∀ x ∈ es, Timing x := fun x hx => ht x (by simp [hx])
  have htm : Timing m := ht m (by simp)
  obtain ⟨l1, l2, l3⟩ := run_live g0 es h0.1 h0.2.1 ht'
  have hf := received_frame (run g0 es) m htm
  cases step_spec (run g0 es) m l1 l2 htm with
  | quiet ps hp hsent hb hn hst => rw [hsent] at ha; exact absurd ha (Announced.complaint hp T s)
  | ask ps hp ts e h1 hh hsent hm =>
    rw [hsent, Announced.append] at ha
    rcases ha with ha | ha
    · exact absurd ha (Announced.complaint hp T s)
    · exact absurd ha announced_questions
  | tell ps hp ts e h1 hh hsent hv hq' hn hm =>
    rw [hsent, Announced.append] at ha
    rcases ha with ha | ha
    · exact absurd ha (Announced.complaint hp T s)
    obtain ⟨rfl, _⟩ := announced_tidings.1 ha
    have hdeps : (run g0 (es ++ [m])).base.deps = (received (run g0 es) m).base.deps := by rw [run_snoc, hh]; rfl
    obtain ⟨pre, p, mid, hc⟩ := current g0 h0 hq es ht' hr h1
    obtain ⟨q1, q2⟩ := quiet_new hn
    refine ⟨⟨(run g0 es).base.seq, pre, p, mid, hc.split, hc.opens, hc.still, ?_, ?_⟩, ?_⟩
    · intro a x b eq
      rcases split_snoc eq with ⟨rfl, rfl, rfl⟩ | ⟨b', rfl, e'⟩
      · rw [← hc.split]; exact q2
      · exact hc.quiet q1 a x b' e'
    · intro x hx hp' hn'
      rw [hdeps] at hx
      have hrsc := verifySeq_mem hv hx hp' hn'
      obtain ⟨d, hd, hfr⟩ := received_deps _ _ htm hx
      obtain ⟨f1, f2, f3⟩ := hfr.facts
      have hpos := hc.pos
      rcases hfr.rsc with k | k | ⟨k1, k2, k3⟩
      · rcases hc.fresh d hd with j | j | ⟨a, ha, j1, j2⟩
        · exact absurd (f2.trans j) hp'.2.2.2.1
        · exact absurd (k.symm.trans hrsc) j
        · exact ⟨a, by simp [ha], j1.trans f1.symm, j2⟩
      · omega
      · rcases k3 with k3 | k3
        · exact absurd k3 hp'.2.2.2.1
        · exact ⟨m, by simp, k1, k2, by rw [← k3, hrsc]⟩
    · intro d hd
      rw [hdeps] at hd
      rcases hq' d hd with k | k
      · exact Or.inl k
      · right
        have := trigTime_le e
        unfold timeEpsilon at *
        omega

/-- An announcement goes to exactly those whose next time is not after the announced time and who are not gone, and to
all of them with the same time; no questions are asked along with it. -/
theorem C58_told (g0 : Glob) (h0 : Started g0) (es : List Msg) (m : Msg) (ht : ∀ x ∈ es ++ [m], Timing x) (T : Time)
    (s : FedId) (ha : Announced T s (sent (run g0 es) m)) :
    (∀ T' s', Announced T' s' (sent (run g0 es) m) ↔
      T' = T ∧ ∃ d ∈ (run g0 (es ++ [m])).base.deps, d.fedID = s' ∧ d.next ≤ T ∧ d.next < cTerm) ∧
    ∀ n s', ¬ Asked n s' (sent (run g0 es) m) := by
  have ht' : ∀ x ∈ es, Timing x := fun x hx => ht x (by simp [hx])
  have htm : Timing m := ht m (by simp)
  obtain ⟨l1, l2, l3⟩ := run_live g0 es h0.1 h0.2.1 ht'
  cases step_spec (run g0 es) m l1 l2 htm with
  | quiet ps hp hsent hb hn hst => rw [hsent] at ha; exact absurd ha (Announced.complaint hp T s)
  | ask ps hp ts e h1 hh hsent hm =>
    rw [hsent, Announced.append] at ha
    rcases ha with ha | ha
    · exact absurd ha (Announced.complaint hp T s)
    · exact absurd ha announced_questions
  | tell ps hp ts e h1 hh hsent hv hq' hn hm =>
    have hdeps : (run g0 (es ++ [m])).base.deps = (received (run g0 es) m).base.deps := by rw [run_snoc, hh]; rfl
    rw [hdeps]
    rw [hsent] at ha ⊢
    rw [Announced.append] at ha
    rcases ha with ha | ha
    · exact absurd ha (Announced.complaint hp T s)
    obtain ⟨rfl, _⟩ := announced_tidings.1 ha
    refine ⟨fun T' s' => ?_, fun n s' k => ?_⟩
    · rw [Announced.append, announced_tidings]
      exact ⟨fun h => h.resolve_left (Announced.complaint hp T' s'), Or.inr⟩
    · rcases Asked.append.1 k with k | k
      · exact Asked.complaint hp n s' k
      · exact asked_tidings k

/-- Questions are asked of exactly those whose next time is not after a common time and who are not gone, all with the
number of the round. -/
theorem C58_asked (g0 : Glob) (h0 : Started g0) (es : List Msg) (m : Msg) (ht : ∀ x ∈ es ++ [m], Timing x) (n : Int)
    (s : FedId) (ha : Asked n s (sent (run g0 es) m)) :
    Opens (run g0 es) m n ∧ (∀ T s', ¬ Announced T s' (sent (run g0 es) m)) ∧
      (run g0 (es ++ [m])).base.seq ≠ (run g0 es).base.seq := by
  have ht' : ∀ x ∈ es, Timing x := fun x hx => ht x (by simp [hx])
  have htm : Timing m := ht m (by simp)
  obtain ⟨l1, l2, l3⟩ := run_live g0 es h0.1 h0.2.1 ht'
  have hf := received_frame (run g0 es) m htm
  cases step_spec (run g0 es) m l1 l2 htm with
  | quiet ps hp hsent hb hn hst => rw [hsent] at ha; exact absurd ha (Asked.complaint hp n s)
  | ask ps hp ts e h1 hh hsent hm =>
    have hop := opens_ask hp hf.1 hh hsent
    have hn : n = (handle (run g0 es) m).base.seq := by
      obtain ⟨_, T, hT⟩ := hop
      exact ((hT n s).1 ha).1
    subst hn
    refine ⟨hop, fun T s' k => ?_, ?_⟩
    · rw [hsent, Announced.append] at k
      rcases k with k | k
      · exact Announced.complaint hp T s' k
      · exact announced_questions k
    · rw [run_snoc, hh, (poll_frame _ _).1]
      show incSeq (received (run g0 es) m).base.seq ≠ _
      rw [hf.1]; exact incSeq_ne _
  | tell ps hp ts e h1 hh hsent hv hq' hn hm =>
    rw [hsent, Asked.append] at ha
    rcases ha with ha | ha
    · exact absurd ha (Asked.complaint hp n s)
    · exact absurd ha asked_tidings

theorem someone_concerned {ds : Deps} {e : Time} (hs : ∀ d ∈ ds, d.next ≤ d.Te) (hx : ∃ d ∈ ds, d.next < cTerm)
    (hm : e = maxVal ∨ ∃ d ∈ ds, d.Te = e) : ∃ d ∈ ds, d.next ≤ trigTime e ∧ d.next < cTerm := by
  by_cases he : e < cTerm
  · have hne : e ≠ maxVal := by
      intro k; rw [k] at he; exact absurd he (by decide)
    obtain ⟨d, hd, k⟩ := hm.resolve_left hne
    have := hs d hd
    refine ⟨d, hd, ?_, by omega⟩
    unfold trigTime timeEpsilon
    rw [if_pos he]; omega
  · obtain ⟨d, hd, k⟩ := hx
    refine ⟨d, hd, ?_, k⟩
    unfold trigTime
    rw [if_neg he]; omega

/-- The master clock does not stop: when everybody waits for a time, each command the broker decides about leads to
questions, or to an announcement, or somebody taking part who was asked in the current round has not answered it. -/
theorem C58_progress (g0 : Glob) (h0 : Started g0) (es : List Msg) (m : Msg)
    (ht : ∀ x ∈ es ++ [m], Timing x) (hb : NoStepBack g0 (es ++ [m])) (hp : Prompting m)
    (hd : (run g0 es).base.deps.isDependency m.source = true) (hall : AllAsking (run g0 (es ++ [m]))) :
    (∃ n s, Asked n s (sent (run g0 es) m)) ∨ (∃ T s, Announced T s (sent (run g0 es) m)) ∨
    ∃ n pre p mid, es ++ [m] = pre ++ p :: mid ∧ Opens (run g0 pre) p n ∧
      (∀ a x b, mid = a ++ x :: b → Nothing (sent (run g0 (pre ++ p :: a)) x)) ∧
      ∃ d ∈ (run g0 (es ++ [m])).base.deps, d.dependency = true ∧ d.dependent = true ∧ d.timingVersion > 0 ∧ d.next < cTerm ∧
        Asked n d.fedID (sent (run g0 pre) p) ∧ d.responseSequenceCounter ≠ n := by
  have ht' : ∀ x ∈ es, Timing x := fun x hx => ht x (by simp [hx])
  have htm : Timing m := ht m (by simp)
  obtain ⟨l1, l2, l3⟩ := run_live g0 es h0.1 h0.2.1 ht'
  have hf := received_frame (run g0 es) m htm
  obtain ⟨a1, a2, d0, a3, a4, a5, a6, a7⟩ := hall
  have hne : cTerm < maxVal := by decide
  have hstep := step_spec (run g0 es) m l1 l2 htm
  cases hstep with
  | ask ps hp' ts e h1 hh hsent hm =>
    left
    have hdep : ∀ x ∈ (run g0 (es ++ [m])).base.deps, ∃ d ∈ (received (run g0 es) m).base.deps, d.next = x.next := by
      intro x hx
      rw [run_snoc, hh] at hx
      obtain ⟨d, hd, rfl | rfl⟩ := poll_mem _ _ hx <;> exact ⟨_, hd, rfl⟩
    have hs : ∀ d ∈ (received (run g0 es) m).base.deps, d.next ≤ d.Te := by
      intro d hd
      obtain ⟨x, hx, k⟩ := poll_mem' { received (run g0 es) m with state := .timeReq, minTime := ts, nextEvent := e } (trigTime e) hd
      have := a2 x (by rw [run_snoc, hh]; exact hx)
      rcases k with rfl | rfl <;> exact this
    obtain ⟨d1, h1', h2'⟩ := hdep d0 a3
    obtain ⟨d, hd', k1, k2⟩ := someone_concerned hs ⟨d1, h1', by omega⟩ hm
    refine ⟨incSeq (run g0 es).base.seq, d.fedID, ?_⟩
    rw [hsent, Asked.append]
    exact Or.inr (asked_questions.2 ⟨rfl, d, hd', rfl, k1, k2⟩)
  | tell ps hp' ts e h1 hh hsent hv hq' hn hm =>
    right; left
    have hdeps : (run g0 (es ++ [m])).base.deps = (received (run g0 es) m).base.deps := by rw [run_snoc, hh]; rfl
    rw [hdeps] at a2 a3
    obtain ⟨d, hd', k1, k2⟩ := someone_concerned a2 ⟨d0, a3, by omega⟩ hm
    refine ⟨trigTime e, d.fedID, ?_⟩
    rw [hsent, Announced.append]
    exact Or.inr (announced_tidings.2 ⟨rfl, d, hd', rfl, k1, k2⟩)
  | quiet ps hp' hsent hbase hn hst =>
    right; right
    have hh := handle_update (g := run g0 es) l1 hp hd
    have hbr : (run g0 (es ++ [m])).base = (received (run g0 es) m).base := by rw [run_snoc, hbase]
    rw [hbr] at a1 a3 a6
    have hask : Asking (received (run g0 es) m).stream.state :=
      stream_asking _ _ _ a1 ⟨d0, a3, a4, a5, a6, by omega⟩
    have hdec := decide_spec (received (run g0 es) m) (hf.2.2.1.trans l2)
    rw [← hh] at hdec
    have hg : (run g0 es).state = .granted ∨ (run g0 es).state = .timeReq := l3 (Or.inl h0.2.2)
    have hwait : (received (run g0 es) m).state = .timeReq ∧
        (received (run g0 es) m).base.deps.verifySeq (trigTime (received (run g0 es) m).nextEvent) (received (run g0 es) m).base.seq = false ∧
        handle (run g0 es) m = received (run g0 es) m := by
      generalize hr : handle (run g0 es) m = r at hdec
      cases hdec with
      | running ts hs => rw [hs] at hask; rcases hask with k | k | k <;> cases k
      | idle hi =>
        rcases hi with ⟨k, k'⟩ | ⟨k, k'⟩ | ⟨k, k'⟩
        · exact absurd hask k'
        · rw [hf.2.2.2.2.1] at k k'
          rcases hg with j | j
          · exact absurd j k
          · exact absurd j k'
        · exact ⟨k, k', rfl⟩
      | ask ts e hs hm =>
        have : (handle (run g0 es) m).base.seq = incSeq (received (run g0 es) m).base.seq := by
          rw [hr, (poll_frame _ _).1]
        rw [hbase] at this
        exact absurd this.symm (incSeq_ne _)
      | tell ts e hs hv hq hn hm =>
        have : (handle (run g0 es) m).base.seq = incSeq (received (run g0 es) m).base.seq := by
          rw [hr]; rfl
        rw [hbase] at this
        exact absurd this.symm (incSeq_ne _)
    obtain ⟨w1, w2, w3⟩ := hwait
    have hrun : run g0 (es ++ [m]) = received (run g0 es) m := by rw [run_snoc, w3]
    obtain ⟨pre, p, mid, hc⟩ := covered g0 h0 (es ++ [m]) ht hb (by rw [hrun]; exact w1)
    refine ⟨_, pre, p, mid, hc.split, hc.opens, hc.still, ?_⟩
    unfold Deps.verifySeq at w2
    rw [List.all_eq_false] at w2
    obtain ⟨d, hd', k⟩ := w2
    unfold Deps.checkSeq at k
    simp only [Bool.or_eq_true, decide_eq_true_eq, not_or, Bool.not_eq_true', Bool.not_eq_false, beq_iff_eq] at k
    obtain ⟨⟨⟨⟨⟨k1, k2⟩, k3⟩, k4⟩, k5⟩, k6⟩ := k
    rw [← hrun] at hd' k4 k6
    exact ⟨d, hd', k1, k2, by omega, by omega, hc.all d hd' (by omega) (by omega), k6⟩

end Glob
end Verif
