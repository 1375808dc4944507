import Verif.Lemmas.Global
/-! Histories of a broker that keeps a master clock. -/
namespace Verif
namespace Glob

theorem Asked.complaint {ps : List Packet} (h : ∀ p ∈ ps, Complaint p) (n : Int) (s : FedId) : ¬ Asked n s ps := by
  rintro ⟨q, h1, h2, _⟩
  obtain ⟨q', e, h3, _⟩ := h _ h1
  cases e
  rw [h2] at h3; cases h3

theorem Announced.complaint {ps : List Packet} (h : ∀ p ∈ ps, Complaint p) (T : Time) (s : FedId) : ¬ Announced T s ps := by
  rintro ⟨q, h1, h2, _⟩
  obtain ⟨q', e, h3, _⟩ := h _ h1
  cases e
  rw [h2] at h3; cases h3

theorem Asked.append {n : Int} {s : FedId} {a b : List Packet} : Asked n s (a ++ b) ↔ Asked n s a ∨ Asked n s b := by
  constructor
  · rintro ⟨q, h, k⟩
    rcases List.mem_append.1 h with h | h
    · exact Or.inl ⟨q, h, k⟩
    · exact Or.inr ⟨q, h, k⟩
  · rintro (⟨q, h, k⟩ | ⟨q, h, k⟩)
    · exact ⟨q, List.mem_append.2 (Or.inl h), k⟩
    · exact ⟨q, List.mem_append.2 (Or.inr h), k⟩

theorem Announced.append {T : Time} {s : FedId} {a b : List Packet} :
    Announced T s (a ++ b) ↔ Announced T s a ∨ Announced T s b := by
  constructor
  · rintro ⟨q, h, k⟩
    rcases List.mem_append.1 h with h | h
    · exact Or.inl ⟨q, h, k⟩
    · exact Or.inr ⟨q, h, k⟩
  · rintro (⟨q, h, k⟩ | ⟨q, h, k⟩)
    · exact ⟨q, List.mem_append.2 (Or.inl h), k⟩
    · exact ⟨q, List.mem_append.2 (Or.inr h), k⟩

/-- the packets of a round of questions -/
def questions (g : Glob) (t : Time) (sq : Int) : List Packet :=
  g.base.deps.filterMap fun d =>
    if concerned t d then
      some (.single { action := .requestCurrentTime, source := g.base.self, dest := d.fedID, counter := sq,
                      extraDestData := d.sequenceCounter })
    else none

/-- the packets of an announcement -/
def tidings (g : Glob) (t : Time) (sq : Int) : List Packet :=
  g.base.deps.filterMap fun d =>
    if concerned t d then
      some (.single { action := .timeRequest, source := g.base.self, dest := d.fedID, actionTime := t, Te := t,
                      Tdemin := t, counter := sq, extraDestData := d.sequenceCounter })
    else none

theorem mem_questions {g : Glob} {t : Time} {sq : Int} {p : Packet} : p ∈ questions g t sq ↔
    ∃ d ∈ g.base.deps, (d.next ≤ t ∧ d.next < cTerm) ∧
      p = .single { action := .requestCurrentTime, source := g.base.self, dest := d.fedID, counter := sq,
                    extraDestData := d.sequenceCounter } := by
  unfold questions concerned
  rw [List.mem_filterMap]
  constructor
  · rintro ⟨d, hd, h⟩
    split at h
    · rename_i hc
      cases h
      refine ⟨d, hd, by simpa using hc, rfl⟩
    · cases h
  · rintro ⟨d, hd, hc, rfl⟩
    refine ⟨d, hd, ?_⟩
    rw [if_pos (by simpa using hc)]

theorem mem_tidings {g : Glob} {t : Time} {sq : Int} {p : Packet} : p ∈ tidings g t sq ↔
    ∃ d ∈ g.base.deps, (d.next ≤ t ∧ d.next < cTerm) ∧
      p = .single { action := .timeRequest, source := g.base.self, dest := d.fedID, actionTime := t, Te := t,
                    Tdemin := t, counter := sq, extraDestData := d.sequenceCounter } := by
  unfold tidings concerned
  rw [List.mem_filterMap]
  constructor
  · rintro ⟨d, hd, h⟩
    split at h
    · rename_i hc
      cases h
      refine ⟨d, hd, by simpa using hc, rfl⟩
    · cases h
  · rintro ⟨d, hd, hc, rfl⟩
    refine ⟨d, hd, ?_⟩
    rw [if_pos (by simpa using hc)]

theorem asked_questions {g : Glob} {t : Time} {sq k : Int} {s : FedId} : Asked k s (questions g t sq) ↔
    k = sq ∧ ∃ d ∈ g.base.deps, d.fedID = s ∧ d.next ≤ t ∧ d.next < cTerm := by
  constructor
  · rintro ⟨q, h, h1, h2, h3⟩
    obtain ⟨d, hd, hc, e⟩ := mem_questions.1 h
    cases e
    exact ⟨h3.symm, d, hd, h2, hc⟩
  · rintro ⟨rfl, d, hd, rfl, hc⟩
    exact ⟨_, mem_questions.2 ⟨d, hd, hc, rfl⟩, rfl, rfl, rfl⟩

theorem announced_questions {g : Glob} {t T : Time} {sq : Int} {s : FedId} : ¬ Announced T s (questions g t sq) := by
  rintro ⟨q, h, h1, _⟩
  obtain ⟨d, hd, hc, e⟩ := mem_questions.1 h
  cases e; cases h1

theorem announced_tidings {g : Glob} {t T : Time} {sq : Int} {s : FedId} : Announced T s (tidings g t sq) ↔
    T = t ∧ ∃ d ∈ g.base.deps, d.fedID = s ∧ d.next ≤ t ∧ d.next < cTerm := by
  constructor
  · rintro ⟨q, h, h1, h2, h3⟩
    obtain ⟨d, hd, hc, e⟩ := mem_tidings.1 h
    cases e
    exact ⟨h3.symm, d, hd, h2, hc⟩
  · rintro ⟨rfl, d, hd, rfl, hc⟩
    exact ⟨_, mem_tidings.2 ⟨d, hd, hc, rfl⟩, rfl, rfl, rfl⟩

theorem asked_tidings {g : Glob} {t : Time} {sq k : Int} {s : FedId} : ¬ Asked k s (tidings g t sq) := by
  rintro ⟨q, h, h1, _⟩
  obtain ⟨d, hd, hc, e⟩ := mem_tidings.1 h
  cases e; cases h1

theorem poll_out (g : Glob) (t : Time) : (g.poll t).base.out = g.base.out ++ questions g t (incSeq g.base.seq) := by
  unfold poll sendTimeUpdateRequest questions
  dsimp only
  rw [normSeq_incSeq]

theorem poll_mem (g : Glob) (t : Time) {x : DepInfo} (hx : x ∈ (g.poll t).base.deps) :
    ∃ d ∈ g.base.deps, x = d ∨ x = { d with updateRequested := true, grantedIteration := incSeq g.base.seq } := by
  unfold poll sendTimeUpdateRequest at hx
  dsimp only at hx
  rw [normSeq_incSeq, List.mem_map] at hx
  obtain ⟨d, hd, rfl⟩ := hx
  refine ⟨d, hd, ?_⟩
  split
  · exact Or.inr rfl
  · exact Or.inl rfl

theorem poll_mem' (g : Glob) (t : Time) {d : DepInfo} (hd : d ∈ g.base.deps) :
    ∃ x ∈ (g.poll t).base.deps, x = d ∨ x = { d with updateRequested := true, grantedIteration := incSeq g.base.seq } := by
  unfold poll sendTimeUpdateRequest
  dsimp only
  rw [normSeq_incSeq]
  refine ⟨_, List.mem_map.2 ⟨d, hd, rfl⟩, ?_⟩
  split
  · exact Or.inr rfl
  · exact Or.inl rfl

theorem asked_poll (g : Glob) (t : Time) (k : Int) (s : FedId) : Asked k s (questions g t (incSeq g.base.seq)) ↔
    k = (g.poll t).base.seq ∧ ∃ d ∈ (g.poll t).base.deps, d.fedID = s ∧ d.next ≤ t ∧ d.next < cTerm := by
  rw [asked_questions, (poll_frame g t).1]
  refine and_congr Iff.rfl ⟨?_, ?_⟩
  · rintro ⟨d, hd, h1, h2, h3⟩
    obtain ⟨x, hx, rfl | rfl⟩ := poll_mem' g t hd
    · exact ⟨x, hx, h1, h2, h3⟩
    · exact ⟨_, hx, h1, h2, h3⟩
  · rintro ⟨x, hx, h1, h2, h3⟩
    obtain ⟨d, hd, rfl | rfl⟩ := poll_mem g t hx
    · exact ⟨x, hd, h1, h2, h3⟩
    · exact ⟨d, hd, h1, h2, h3⟩

/-- what handling one command does -/
inductive Step (g : Glob) (m : Msg) : Prop
  | quiet (ps : List Packet) (hp : ∀ p ∈ ps, Complaint p) (hs : sent g m = ps)
      (hb : (handle g m).base = (received g m).base) (hn : (handle g m).newRequest = (received g m).newRequest)
      (hst : (handle g m).state = .granted ∨ ((handle g m).state = g.state ∧ (handle g m).nextEvent = g.nextEvent))
  | ask (ps : List Packet) (hp : ∀ p ∈ ps, Complaint p) (ts e : Time) (h0 : g.state = .granted ∨ g.state = .timeReq)
      (hh : handle g m = poll { received g m with state := .timeReq, minTime := ts, nextEvent := e } (trigTime e))
      (hs : sent g m = ps ++ questions (received g m) (trigTime e) (incSeq g.base.seq))
      (hm : e = maxVal ∨ ∃ d ∈ (received g m).base.deps, d.Te = e)
  | tell (ps : List Packet) (hp : ∀ p ∈ ps, Complaint p) (ts e : Time) (h0 : g.state = .timeReq)
      (hh : handle g m = { announce (received g m) (trigTime e) with state := .granted, minTime := ts, nextEvent := ts })
      (hs : sent g m = ps ++ tidings (received g m) (trigTime e) (incSeq g.base.seq))
      (hv : (received g m).base.deps.verifySeq (trigTime e) g.base.seq = true)
      (ht : ∀ d ∈ (received g m).base.deps, (d.nonGranting = true ∧ d.triggered = false) ∨ e ≤ d.Te)
      (hn : (received g m).newRequest = false) (hm : e = maxVal ∨ ∃ d ∈ (received g m).base.deps, d.Te = e)

theorem step_spec (g : Glob) (m : Msg) (he : g.base.entered = true) (hx : g.base.executionMode = true) (ht : Timing m) :
    Step g m := by
  obtain ⟨ps, ho, hp⟩ := received_out g m ht
  obtain ⟨f1, f2, f3, f4, f5, f6⟩ := received_frame g m ht
  rcases handle_cases g m he with h | h
  · refine .quiet ps hp ?_ (by rw [h]) (by rw [h]) (Or.inr ⟨by rw [h, f5], by rw [h, f6]⟩)
    unfold sent; rw [h, ho]; simp
  · have hd := decide_spec (received g m) (f3.trans hx)
    rw [← h] at hd
    generalize hg : handle g m = r at hd
    cases hd with
    | running ts hs =>
      refine .quiet ps hp ?_ (by rw [hg]) (by rw [hg]) (Or.inl (by rw [hg]))
      unfold sent; rw [hg, ho]; simp
    | idle hi =>
      refine .quiet ps hp ?_ (by rw [hg]) (by rw [hg]) (Or.inr ⟨by rw [hg, f5], by rw [hg, f6]⟩)
      unfold sent; rw [hg, ho]; simp
    | ask ts e hs hm =>
      refine .ask ps hp ts e (by rw [← f5]; exact hs) hg ?_ hm
      unfold sent
      rw [hg, poll_out]
      dsimp only
      rw [ho, f1, List.append_assoc, List.drop_left]
      rfl
    | tell ts e hs hv hq hn hm =>
      refine .tell ps hp ts e (by rw [← f5]; exact hs) hg ?_ (by rw [← f1]; exact hv) hq hn hm
      unfold sent
      rw [hg]
      unfold announce
      dsimp only
      rw [ho, f1, List.append_assoc, List.drop_left]
      rfl

theorem handle_live (g : Glob) (m : Msg) (he : g.base.entered = true) (hx : g.base.executionMode = true) (ht : Timing m) :
    (handle g m).base.entered = true ∧ (handle g m).base.executionMode = true ∧
    (g.state = .granted ∨ g.state = .timeReq → (handle g m).state = .granted ∨ (handle g m).state = .timeReq) := by
  obtain ⟨f1, f2, f3, f4, f5, f6⟩ := received_frame g m ht
  cases step_spec g m he hx ht with
  | quiet ps hp hs hb hn hst =>
    rw [hb, f2, f3]
    refine ⟨he, hx, fun k => ?_⟩
    rcases hst with h | h
    · exact Or.inl h
    · rw [h.1]; exact k
  | ask ps hp ts e h0 hh hs hm =>
    rw [hh]
    obtain ⟨p1, p2, p3, p4, p5, p6, p7⟩ := poll_frame { received g m with state := .timeReq, minTime := ts, nextEvent := e } (trigTime e)
    exact ⟨p2.trans (f2.trans he), p3.trans (f3.trans hx), fun _ => Or.inr p5⟩
  | tell ps hp ts e h0 hh hs hv hq hn hm =>
    rw [hh]
    exact ⟨f2.trans he, f3.trans hx, fun _ => Or.inl rfl⟩

theorem run_live (g : Glob) (es : List Msg) (he : g.base.entered = true) (hx : g.base.executionMode = true)
    (ht : ∀ m ∈ es, Timing m) : (run g es).base.entered = true ∧ (run g es).base.executionMode = true ∧
    (g.state = .granted ∨ g.state = .timeReq → (run g es).state = .granted ∨ (run g es).state = .timeReq) := by
  induction es generalizing g with
  | nil => exact ⟨he, hx, id⟩
  | cons m es ih =>
    obtain ⟨a, b, c⟩ := handle_live g m he hx (ht m (by simp))
    obtain ⟨a', b', c'⟩ := ih (handle g m) a b (fun x hx => ht x (by simp [hx]))
    exact ⟨a', b', fun k => c' (c k)⟩

/-- The current round: it was opened by `p`, nothing has been sent since, answers with its number have come since, and
new requests since are remembered. -/
structure Current (g0 : Glob) (es pre : List Msg) (p : Msg) (mid : List Msg) : Prop where
  split : es = pre ++ p :: mid
  opens : Opens (run g0 pre) p (run g0 es).base.seq
  still : ∀ a x b, mid = a ++ x :: b → Nothing (sent (run g0 (pre ++ p :: a)) x)
  fresh : ∀ d ∈ (run g0 es).base.deps, d.connection = .self ∨ d.responseSequenceCounter ≠ (run g0 es).base.seq ∨
    ∃ a ∈ mid, a.source = d.fedID ∧ Answers (run g0 es).base.seq a
  quiet : (run g0 es).newRequest = false → ∀ a x b, mid = a ++ x :: b → ¬ NewAsk (run g0 (pre ++ p :: a)) x
  pos : 1 ≤ (run g0 es).base.seq

theorem incSeq_pos {c : Int} (h : 0 ≤ c) : 1 ≤ incSeq c := by unfold incSeq; split <;> omega

theorem seq_nonneg (g : Glob) (es : List Msg) (he : g.base.entered = true) (hx : g.base.executionMode = true)
    (h0 : 0 ≤ g.base.seq) (ht : ∀ m ∈ es, Timing m) : 0 ≤ (run g es).base.seq := by
  induction es generalizing g with
  | nil => exact h0
  | cons m es ih =>
    obtain ⟨a, b, c⟩ := handle_live g m he hx (ht m (by simp))
    refine ih (handle g m) a b ?_ (fun x hx => ht x (by simp [hx]))
    have f1 := (received_frame g m (ht m (by simp))).1
    cases step_spec g m he hx (ht m (by simp)) with
    | quiet ps hp hs hb hn hst => rw [hb, f1]; exact h0
    | ask ps hp ts e h1 hh hs hm =>
      rw [hh, (poll_frame _ _).1]
      have := incSeq_pos (c := (received g m).base.seq) (by rw [f1]; exact h0)
      exact Int.le_trans (by decide) this
    | tell ps hp ts e h1 hh hs hv hq hn hm =>
      rw [hh]
      have := incSeq_pos (c := (received g m).base.seq) (by rw [f1]; exact h0)
      exact Int.le_trans (by decide) this

theorem split_snoc {l a b : List Msg} {m x : Msg} (h : l ++ [m] = a ++ x :: b) :
    (b = [] ∧ a = l ∧ x = m) ∨ ∃ b', b = b' ++ [m] ∧ l = a ++ x :: b' := by
  rcases List.eq_nil_or_concat b with rfl | ⟨b', y, rfl⟩
  · left
    obtain ⟨h1, h2⟩ := List.append_inj' h rfl
    cases h2
    exact ⟨rfl, h1.symm, rfl⟩
  · right
    have e : l ++ [m] = (a ++ x :: b') ++ [y] := by simpa using h
    obtain ⟨h1, h2⟩ := List.append_inj' e rfl
    cases h2
    exact ⟨b', by simp, h1⟩

theorem Current.extend {g0 : Glob} {es pre mid : List Msg} {p m : Msg} (h : Current g0 es pre p mid)
    (ht : Timing m) (hs : Nothing (sent (run g0 es) m))
    (hseq : (run g0 (es ++ [m])).base.seq = (run g0 es).base.seq)
    (hd : ∀ x ∈ (run g0 (es ++ [m])).base.deps, ∃ d ∈ (run g0 es).base.deps, From m d x)
    (hn : (run g0 (es ++ [m])).newRequest = false → (run g0 es).newRequest = false ∧ ¬ NewAsk (run g0 es) m) :
    Current g0 (es ++ [m]) pre p (mid ++ [m]) where
  split := by rw [h.split]; simp
  opens := by rw [hseq]; exact h.opens
  still := by
    intro a x b e
    rcases split_snoc e with ⟨rfl, rfl, rfl⟩ | ⟨b', rfl, e'⟩
    · rw [← h.split]; exact hs
    · exact h.still a x b' e'
  fresh := by
    intro x hx
    rw [hseq]
    obtain ⟨d, hd, hf⟩ := hd x hx
    obtain ⟨f1, f2, f3⟩ := hf.facts
    have hp := h.pos
    rcases hf.rsc with k | k | ⟨k1, k2, k3⟩
    · rcases h.fresh d hd with j | j | ⟨a, ha, j1, j2⟩
      · exact Or.inl (f2.trans j)
      · exact Or.inr (Or.inl (by rw [k]; exact j))
      · exact Or.inr (Or.inr ⟨a, by simp [ha], j1.trans f1.symm, j2⟩)
    · exact Or.inr (Or.inl (by rw [k]; omega))
    · rcases k3 with k3 | k3
      · exact Or.inl k3
      · by_cases hq : x.responseSequenceCounter = (run g0 es).base.seq
        · exact Or.inr (Or.inr ⟨m, by simp, k1, k2, by rw [← k3, hq]⟩)
        · exact Or.inr (Or.inl hq)
  quiet := by
    intro hq a x b e
    obtain ⟨q1, q2⟩ := hn hq
    rcases split_snoc e with ⟨rfl, rfl, rfl⟩ | ⟨b', rfl, e'⟩
    · rw [← h.split]; exact q2
    · exact h.quiet q1 a x b' e'
  pos := by rw [hseq]; exact h.pos

theorem NoReuse.prefix {g : Glob} {a b : List Msg} (h : NoReuse g (a ++ b)) : NoReuse g a := by
  intro pre p post e
  exact h pre p (post ++ b) (by rw [e]; simp)

theorem opens_ask {g : Glob} {m : Msg} {ps : List Packet} (hp : ∀ p ∈ ps, Complaint p) {ts e : Time}
    (hf : (received g m).base.seq = g.base.seq)
    (hh : handle g m = poll { received g m with state := .timeReq, minTime := ts, nextEvent := e } (trigTime e))
    (hs : sent g m = ps ++ questions (received g m) (trigTime e) (incSeq g.base.seq)) :
    Opens g m (handle g m).base.seq := by
  refine ⟨rfl, trigTime e, fun k s => ?_⟩
  rw [hs, hh, Asked.append, ← hf]
  have := asked_poll { received g m with state := .timeReq, minTime := ts, nextEvent := e } (trigTime e) k s
  rw [← this]
  exact ⟨fun h => h.resolve_left (Asked.complaint hp k s), Or.inr⟩

theorem nothing_complaints {ps : List Packet} (hp : ∀ p ∈ ps, Complaint p) : Nothing ps :=
  ⟨fun n s => Asked.complaint hp n s, fun T s => Announced.complaint hp T s⟩

theorem quiet_new {g : Glob} {m : Msg} (h : (received g m).newRequest = false) : g.newRequest = false ∧ ¬ NewAsk g m := by
  have k := received_newRequest g m
  rw [h] at k
  refine ⟨?_, fun j => ?_⟩
  · cases hq : g.newRequest
    · rfl
    · exact absurd (k.2 (Or.inl hq)) (fun e => by cases e)
  · exact absurd (k.2 (Or.inr j)) (fun e => by cases e)

theorem snoc_induction {P : List Msg → Prop} (h0 : P []) (h1 : ∀ l m, P l → P (l ++ [m])) (l : List Msg) : P l := by
  suffices h : ∀ n (l : List Msg), l.length = n → P l from h _ l rfl
  intro n
  induction n with
  | zero => intro l hl; rw [List.length_eq_zero_iff.1 hl]; exact h0
  | succ n ih =>
    intro l hl
    rcases List.eq_nil_or_concat l with rfl | ⟨l', y, rfl⟩
    · exact h0
    · rw [List.concat_eq_append] at hl ⊢
      exact h1 _ _ (ih _ (by simpa using hl))

/-- while the broker is waiting for answers there is a current round -/
theorem current (g0 : Glob) (h0 : Started g0) (hq : 0 ≤ g0.base.seq) (es : List Msg) (ht : ∀ m ∈ es, Timing m)
    (hr : NoReuse g0 es) (hs : (run g0 es).state = .timeReq) : ∃ pre p mid, Current g0 es pre p mid := by
  induction es using snoc_induction with
  | h0 => rw [show run g0 [] = g0 from rfl, h0.2.2] at hs; cases hs
  | h1 es m ih =>
    have ht' : ∀ x ∈ es, Timing x := fun x hx => ht x (by simp [hx])
    have htm : Timing m := ht m (by simp)
    obtain ⟨l1, l2, l3⟩ := run_live g0 es h0.1 h0.2.1 ht'
    have hf := received_frame (run g0 es) m htm
    rw [run_snoc] at hs
    cases step_spec (run g0 es) m l1 l2 htm with
    | quiet ps hp hsent hb hn hst =>
      have hst' : (run g0 es).state = .timeReq := by
        rcases hst with k | k
        · rw [k] at hs; cases hs
        · rw [← k.1]; exact hs
      obtain ⟨pre, p, mid, hc⟩ := ih ht' hr.prefix hst'
      refine ⟨pre, p, mid ++ [m], hc.extend htm (by rw [hsent]; exact nothing_complaints hp) ?_ ?_ ?_⟩
      · rw [run_snoc, hb]; exact hf.1
      · intro x hx
        rw [run_snoc, hb] at hx
        exact received_deps _ _ htm hx
      · intro k
        rw [run_snoc, hn] at k
        exact quiet_new k
    | ask ps hp ts e h1 hh hsent hm =>
      refine ⟨es, m, [], ?_⟩
      have hop := opens_ask hp hf.1 hh hsent
      have hne : (run g0 (es ++ [m])).base.seq ≠ (run g0 es).base.seq := by
        rw [run_snoc, hh, (poll_frame _ _).1]
        show incSeq (received (run g0 es) m).base.seq ≠ _
        rw [hf.1]; exact incSeq_ne _
      refine ⟨by simp, ?_, ?_, ?_, ?_, ?_⟩
      · rw [run_snoc]; exact hop
      · intro a x b e'; cases a <;> cases e'
      · intro d hd
        rcases hr es m [] (by simp) hne d hd with k | k
        · exact Or.inl k
        · exact Or.inr (Or.inl k)
      · intro _ a x b e'; cases a <;> cases e'
      · rw [run_snoc, hh, (poll_frame _ _).1]
        exact incSeq_pos (by rw [show ({ received (run g0 es) m with state := TimeState.timeReq, minTime := ts, nextEvent := e } : Glob).base.seq = (received (run g0 es) m).base.seq from rfl, hf.1]; exact seq_nonneg g0 es h0.1 h0.2.1 hq ht')
    | tell ps hp ts e h1 hh hsent hv hq' hn hm =>
      rw [hh] at hs; cases hs

theorem verifySeq_mem {ds : Deps} {t : Time} {n : Int} (h : ds.verifySeq t n = true) {d : DepInfo} (hd : d ∈ ds)
    (hp : TakesPart d) (hn : d.next ≤ t) : d.responseSequenceCounter = n := by
  unfold Deps.verifySeq at h
  rw [List.all_eq_true] at h
  have := h d hd
  unfold Deps.checkSeq at this
  obtain ⟨p1, p2, p3, p4, p5⟩ := hp
  simp only [Bool.or_eq_true, decide_eq_true_eq, p1, p2, Bool.not_true, Bool.false_eq_true, false_or, beq_iff_eq] at this
  rcases this with ((k | k) | k) | k
  · omega
  · omega
  · omega
  · exact k

end Glob
end Verif
