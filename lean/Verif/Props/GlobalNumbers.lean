import Verif.Props.GlobalProps
/-! The numbers of the rounds are not reused within 32767 rounds, and what a command leaves in the table. -/
namespace Verif
namespace Glob

theorem rounds_append (g : Glob) (a b : List Msg) : rounds g (a ++ b) = rounds g a + rounds (run g a) b := by
  induction a generalizing g with
  | nil => simp [rounds, run]
  | cons m a ih =>
    show (_ + rounds (handle g m) (a ++ b)) = (_ + rounds (handle g m) a) + rounds (run (handle g m) a) b
    rw [ih, Nat.add_assoc]

theorem rounds_snoc (g : Glob) (a : List Msg) (m : Msg) : rounds g (a ++ [m]) =
    rounds g a + if (handle (run g a) m).base.seq = (run g a).base.seq then 0 else 1 := by
  rw [rounds_append]; simp [rounds]

/-- the numbers in use so far -/
structure Numbers (g0 : Glob) (es : List Msg) : Prop where
  seq : (run g0 es).base.seq = rounds g0 es
  out : ∀ q, Packet.single q ∈ (run g0 es).base.out → q.counter ≤ (run g0 es).base.seq
  rsc : ∀ d ∈ (run g0 es).base.deps, d.connection = .self ∨ d.responseSequenceCounter ≤ (run g0 es).base.seq

/-- the effect of one command on the numbers -/
theorem handle_numbers (g : Glob) (m : Msg) (he : g.base.entered = true) (hx : g.base.executionMode = true) (ht : Timing m) :
    ((handle g m).base.seq = g.base.seq ∨ (handle g m).base.seq = incSeq g.base.seq) ∧
    (∀ q, Packet.single q ∈ (handle g m).base.out → Packet.single q ∈ g.base.out ∨ q.counter = 0 ∨ q.counter = (handle g m).base.seq) ∧
    ∀ x ∈ (handle g m).base.deps, ∃ d ∈ g.base.deps, x.connection = d.connection ∧ x.fedID = d.fedID ∧
      (x.responseSequenceCounter = d.responseSequenceCounter ∨ x.responseSequenceCounter = 0 ∨
        (m.source = x.fedID ∧ (m.action = .timeRequest ∨ m.action = .execRequest) ∧
          (x.connection = .self ∨ x.responseSequenceCounter = m.extraDestData))) := by
  have hf := received_frame g m ht
  obtain ⟨ps0, ho, hp0⟩ := received_out g m ht
  have hdep : ∀ x ∈ (received g m).base.deps, ∃ d ∈ g.base.deps, x.connection = d.connection ∧ x.fedID = d.fedID ∧
      (x.responseSequenceCounter = d.responseSequenceCounter ∨ x.responseSequenceCounter = 0 ∨
        (m.source = x.fedID ∧ (m.action = .timeRequest ∨ m.action = .execRequest) ∧
          (x.connection = .self ∨ x.responseSequenceCounter = m.extraDestData))) := by
    intro x hx
    obtain ⟨d, hd, h⟩ := received_deps g m ht hx
    exact ⟨d, hd, h.facts.2.1, h.facts.1, h.rsc⟩
  have hrec : ∀ q, Packet.single q ∈ (received g m).base.out → Packet.single q ∈ g.base.out ∨ q.counter = 0 := by
    intro q hq
    rw [ho] at hq
    rcases List.mem_append.1 hq with h | h
    · exact Or.inl h
    · obtain ⟨q', e, _, k⟩ := hp0 _ h
      cases e
      exact Or.inr k
  cases step_spec g m he hx ht with
  | quiet ps hp hs hb hn hst =>
    rw [hb]
    exact ⟨Or.inl hf.1, fun q hq => (hrec q hq).imp id Or.inl, hdep⟩
  | ask ps hp ts e h0 hh hs hm =>
    rw [hh]
    refine ⟨Or.inr ?_, fun q hq => ?_, fun x hx => ?_⟩
    · rw [(poll_frame _ _).1]; exact congrArg incSeq hf.1
    · rw [poll_out] at hq
      rcases List.mem_append.1 hq with h | h
      · exact (hrec q h).imp id Or.inl
      · obtain ⟨d, _, _, k⟩ := mem_questions.1 h
        cases k
        right; right
        rw [(poll_frame _ _).1]
    · obtain ⟨d, hd, k⟩ := poll_mem _ _ hx
      obtain ⟨d', h1, h2⟩ := hdep d hd
      rcases k with rfl | rfl <;> exact ⟨d', h1, h2⟩
  | tell ps hp ts e h0 hh hs hv hq hn hm =>
    rw [hh]
    refine ⟨Or.inr (congrArg incSeq hf.1), fun q hq => ?_, fun x hx => hdep x hx⟩
    unfold announce at hq
    rcases List.mem_append.1 hq with h | h
    · exact (hrec q h).imp id Or.inl
    · obtain ⟨d, _, _, k⟩ := mem_tidings.1 h
      cases k
      right; right; rfl

theorem numbers (g0 : Glob) (h0 : Started g0) (hq : g0.base.seq = 0)
    (hd0 : ∀ d ∈ g0.base.deps, d.responseSequenceCounter ≤ 0)
    (ho0 : ∀ q, Packet.single q ∈ g0.base.out → q.counter ≤ 0)
    (es : List Msg) (ht : ∀ x ∈ es, Timing x) (hh : Honest g0 es) (hr : rounds g0 es < 32767) : Numbers g0 es := by
  induction es using snoc_induction with
  | h0 => exact ⟨hq, fun q h => by rw [show run g0 [] = g0 from rfl, hq]; exact ho0 q h,
      fun d h => Or.inr (by rw [show run g0 [] = g0 from rfl, hq]; exact hd0 d h)⟩
  | h1 es m ih =>
    have ht' : ∀ x ∈ es, Timing x := fun x hx => ht x (by simp [hx])
    have htm : Timing m := ht m (by simp)
    obtain ⟨l1, l2, l3⟩ := run_live g0 es h0.1 h0.2.1 ht'
    rw [rounds_snoc] at hr
    have ihn := ih ht' (fun pre x post e => hh pre x (post ++ [m]) (by rw [e]; simp)) (by omega)
    obtain ⟨n1, n2, n3⟩ := handle_numbers (run g0 es) m l1 l2 htm
    have hseq : (run g0 (es ++ [m])).base.seq = rounds g0 (es ++ [m]) := by
      rw [run_snoc, rounds_snoc]
      rcases n1 with k | k
      · rw [k, if_pos rfl, ihn.seq]; omega
      · have : (handle (run g0 es) m).base.seq ≠ (run g0 es).base.seq := by rw [k]; exact incSeq_ne _
        rw [if_neg this] at hr ⊢
        rw [k, ihn.seq]
        unfold incSeq
        rw [if_neg (by omega)]
        omega
    have hle : (run g0 es).base.seq ≤ (run g0 (es ++ [m])).base.seq := by
      rw [hseq, ihn.seq, rounds_append]; omega
    have hnn : 0 ≤ (run g0 es).base.seq := by rw [ihn.seq]; omega
    refine ⟨hseq, ?_, ?_⟩
    · intro q hq
      rw [run_snoc] at hq
      rcases n2 q hq with k | k | k
      · exact Int.le_trans (ihn.out q k) hle
      · omega
      · rw [run_snoc]; omega
    · intro x hx
      rw [run_snoc] at hx
      obtain ⟨d, hd, c1, c2, k⟩ := n3 x hx
      rcases k with k | k | ⟨k1, k2, k3⟩
      · rcases ihn.rsc d hd with j | j
        · exact Or.inl (c1.trans j)
        · right; omega
      · right; omega
      · rcases k3 with k3 | k3
        · exact Or.inl k3
        · right
          rcases hh es m [] (by simp) k2 with j | ⟨q, j1, j2, j3⟩
          · omega
          · have := ihn.out q j1; omega

/-- If federates carry back only numbers they were sent, no number is reused in the first 32766 rounds. -/
theorem C58_numbers (g0 : Glob) (h0 : Started g0) (hq : g0.base.seq = 0)
    (hd0 : ∀ d ∈ g0.base.deps, d.responseSequenceCounter ≤ 0)
    (ho0 : ∀ q, Packet.single q ∈ g0.base.out → q.counter ≤ 0)
    (es : List Msg) (ht : ∀ x ∈ es, Timing x) (hh : Honest g0 es) (hr : rounds g0 es < 32767) : NoReuse g0 es := by
  intro pre p post e hne
  have e' : es = (pre ++ [p]) ++ post := by rw [e]; simp
  have ht' : ∀ x ∈ pre, Timing x := fun x hx => ht x (by rw [e]; simp [hx])
  have htp : Timing p := ht p (by rw [e]; simp)
  have hr' : rounds g0 (pre ++ [p]) < 32767 := by
    rw [e', rounds_append] at hr; omega
  have hn := numbers g0 h0 hq hd0 ho0 pre ht' (fun a x b k => hh a x (b ++ p :: post) (by rw [e, k]; simp)) (by
    rw [rounds_append] at hr'; omega)
  obtain ⟨l1, l2, l3⟩ := run_live g0 pre h0.1 h0.2.1 ht'
  obtain ⟨n1, n2, n3⟩ := handle_numbers (run g0 pre) p l1 l2 htp
  have hnn : 0 ≤ (run g0 pre).base.seq := by rw [hn.seq]; omega
  have hlt : (run g0 pre).base.seq < (run g0 (pre ++ [p])).base.seq := by
    rw [run_snoc] at hne ⊢
    have k := n1.resolve_left hne
    rw [k]
    unfold incSeq
    rw [rounds_snoc] at hr'
    rw [if_neg hne] at hr'
    rw [if_neg (by rw [hn.seq]; omega)]
    omega
  intro x hx
  rw [run_snoc] at hx
  obtain ⟨d, hd, c1, c2, k⟩ := n3 x hx
  rcases k with k | k | ⟨k1, k2, k3⟩
  · rcases hn.rsc d hd with j | j
    · exact Or.inl (c1.trans j)
    · right; omega
  · right; omega
  · rcases k3 with k3 | k3
    · exact Or.inl k3
    · right
      rcases hh pre p post e k2 with j | ⟨q, j1, j2, j3⟩
      · omega
      · have := hn.out q j1; omega

/-- A federate's request is recorded as it is, and nobody else's record changes (except that it is being asked). -/
theorem C58_record (g0 : Glob) (h0 : Started g0) (es : List Msg) (m : Msg) (ht : ∀ x ∈ es ++ [m], Timing x)
    (x : DepInfo) (hx : x ∈ (run g0 (es ++ [m])).base.deps) :
    ∃ d ∈ (run g0 es).base.deps, x.fedID = d.fedID ∧
      (d.fedID ≠ m.source → x.next = d.next ∧ x.Te = d.Te ∧ x.state = d.state ∧ x.triggered = d.triggered ∧
        x.nonGranting = d.nonGranting ∧ x.responseSequenceCounter = d.responseSequenceCounter) := by
  have ht' : ∀ x ∈ es, Timing x := fun x hx => ht x (by simp [hx])
  have htm : Timing m := ht m (by simp)
  obtain ⟨l1, l2, l3⟩ := run_live g0 es h0.1 h0.2.1 ht'
  have hrec : ∀ x ∈ (received (run g0 es) m).base.deps, ∃ d ∈ (run g0 es).base.deps, x.fedID = d.fedID ∧
      (d.fedID ≠ m.source → x.next = d.next ∧ x.Te = d.Te ∧ x.state = d.state ∧ x.triggered = d.triggered ∧
        x.nonGranting = d.nonGranting ∧ x.responseSequenceCounter = d.responseSequenceCounter) := by
    intro x hx
    obtain ⟨d, hd, hf⟩ := received_deps _ _ htm hx
    refine ⟨d, hd, hf.facts.1, fun hne => ?_⟩
    rcases hf with rfl | ⟨k, _⟩
    · exact ⟨rfl, rfl, rfl, rfl, rfl, rfl⟩
    · exact absurd k hne
  rw [run_snoc] at hx
  cases step_spec (run g0 es) m l1 l2 htm with
  | quiet ps hp hs hb hn hst => rw [hb] at hx; exact hrec x hx
  | ask ps hp ts e h0 hh hs hm =>
    rw [hh] at hx
    obtain ⟨d, hd, k⟩ := poll_mem _ _ hx
    have := hrec d hd
    rcases k with rfl | rfl <;> exact this
  | tell ps hp ts e h0 hh hs hv hq hn hm =>
    rw [hh] at hx; exact hrec x hx

end Glob
end Verif
