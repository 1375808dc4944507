import Verif.Lemmas.TimeoutRun
/-! # C59: lost connections are noticed, and no living one is given up -/
namespace Verif
namespace Ping
open Node

/-! ## The members of a root broker -/

/-- No false alarms: the connection to `x` is reported lost only if `x` was asked more than the time-out ago and has not
answered since. -/
theorem C59_no_false_alarm (b0 : Node) (hf : Fresh b0) (es : List Ev) (hr : RootRun b0 es) (hk : Clock es) (t t2 : Int) (x : Id)
    (h : Out.lost x ∈ sent (run b0 es) (.tick t t2)) :
    ∃ pre s s2 post, es = pre ++ .tick s s2 :: post ∧ Pinged x (run b0 pre) (.tick s s2) ∧ t - s > b0.timeout ∧ t - s2 > b0.timeout ∧
      ∀ e ∈ post, e ≠ .reply x := by
  have i := rinv b0 hf es hr
  have pw : (run b0 es).parent.waiting = false := by rw [i.parent]; exact hf.2.2.1
  obtain ⟨tk, _⟩ := tick_root (run b0 es) t t2 i.core i.root pw i.says
  cases tk with
  | missed _ hs _ => rw [hs] at h; cases h
  | waits _ _ hw hs _ =>
    rw [hs] at h
    obtain ⟨c, hc, hc2⟩ := List.mem_filterMap.1 h
    split at hc2
    · rename_i hwait
      split at hc2
      · rename_i hto
        cases hc2
        obtain ⟨pre, s, post, k1, k2, k3⟩ := i.wait c hc hwait
        rw [i.timeout] at hto
        have : s ≤ c.last := hk _ (by rw [k1]; simp) s c.last rfl
        exact ⟨pre, s, c.last, post, k1, k2, by omega, hto, k3⟩
      · cases hc2
    · cases hc2
  | asks _ _ hw f hf' hs _ =>
    rw [hs] at h
    rcases List.mem_append.1 h with h | h
    · obtain ⟨m, _, hm⟩ := List.mem_filterMap.1 h
      split at hm <;> cases hm
    · exact absurd (hf' _ h) (by simp [Quiet])

theorem open_question (b0 : Node) (hf : Fresh b0) (pre : List Ev) (s s2 : Int) (mid : List Ev)
    (hr : RootRun b0 (pre ++ .tick s s2 :: mid)) (x : Id) (hp : Pinged x (run b0 pre) (.tick s s2))
    (hm : ∀ e ∈ mid, e ≠ .reply x) :
    ∃ c ∈ (run b0 (pre ++ .tick s s2 :: mid)).conns, c.id = x ∧ c.waiting = true ∧ c.last = s2 := by
  have e : pre ++ .tick s s2 :: mid = (pre ++ [.tick s s2]) ++ mid := by simp
  rw [e] at hr ⊢
  obtain ⟨h, _⟩ := opened b0 hf pre s s2 ⟨hr.1, hr.2.1, fun y hy => hr.2.2 y (List.mem_append.2 (Or.inl hy))⟩ x hp
  exact still b0 hf _ mid hr x s2 h hm

/-- A lost connection is noticed: if `x` was asked and has not answered, the next tick that finds nothing but ticks since the
one before asks it again, or reports it lost once the time-out is over. -/
theorem C59_noticed (b0 : Node) (hf : Fresh b0) (pre : List Ev) (s s2 : Int) (mid : List Ev) (t t2 : Int)
    (hr : RootRun b0 (pre ++ .tick s s2 :: mid)) (x : Id) (hp : Pinged x (run b0 pre) (.tick s s2))
    (hm : ∀ e ∈ mid, e ≠ .reply x) (hh : Heard (pre ++ .tick s s2 :: mid)) (ho : (run b0 (pre ++ .tick s s2 :: mid)).operating = true) :
    (t - s2 > b0.timeout → Out.lost x ∈ sent (run b0 (pre ++ .tick s s2 :: mid)) (.tick t t2)) ∧
    (t - s2 ≤ b0.timeout → Out.again x ∈ sent (run b0 (pre ++ .tick s s2 :: mid)) (.tick t t2)) := by
  have i := rinv b0 hf _ hr
  have pw : (run b0 (pre ++ .tick s s2 :: mid)).parent.waiting = false := by rw [i.parent]; exact hf.2.2.1
  obtain ⟨c, hc, k1, k2, k3⟩ := open_question b0 hf pre s s2 mid hr x hp hm
  have hz := (since_heard b0 hf.2.2.2 _).2 hh
  obtain ⟨tk, _⟩ := tick_root (run b0 (pre ++ .tick s s2 :: mid)) t t2 i.core i.root pw i.says
  cases tk with
  | missed h hs _ =>
    rcases h with h | h
    · exact absurd hz h
    · rw [ho] at h; cases h
  | asks _ _ hw _ _ _ _ => rw [hw c hc] at k2; cases k2
  | waits _ _ _ hs _ =>
    rw [hs]
    constructor
    · intro ht
      refine List.mem_filterMap.2 ⟨c, hc, ?_⟩
      rw [if_pos k2, i.timeout, k3, if_pos ht, k1]
    · intro ht
      refine List.mem_filterMap.2 ⟨c, hc, ?_⟩
      rw [if_pos k2, i.timeout, k3, if_neg (by omega), k1]

/-- Everybody is watched: if all who were asked have answered, the next tick that finds nothing but ticks since the one
before asks exactly the members that are alive and answer pings. -/
theorem C59_everybody (b0 : Node) (hf : Fresh b0) (es : List Ev) (hr : RootRun b0 es) (t t2 : Int) (hh : Heard es)
    (ho : (run b0 es).operating = true)
    (ha : ∀ x pre p post, es = pre ++ p :: post → Pinged x (run b0 pre) p → .reply x ∈ post) (x : Id) (c : Bool) :
    Out.ping x c ∈ sent (run b0 es) (.tick t t2) ↔
      ∃ m ∈ (run b0 es).members, m.id = x ∧ m.core = c ∧ Alive m.state ∧ m.noPing = false := by
  have al : ∀ s : St, Alive s ↔ s.live = true := by intro s; cases s <;> simp [Alive, St.live]
  simp only [al]
  have i := rinv b0 hf es hr
  have pw : (run b0 es).parent.waiting = false := by rw [i.parent]; exact hf.2.2.1
  have hz := (since_heard b0 hf.2.2.2 _).2 hh
  obtain ⟨tk, _⟩ := tick_root (run b0 es) t t2 i.core i.root pw i.says
  cases tk with
  | missed h hs _ =>
    rcases h with h | h
    · exact absurd hz h
    · rw [ho] at h; cases h
  | waits _ _ hw _ _ =>
    obtain ⟨c, hc, hw⟩ := hw
    obtain ⟨pre, s, post, k1, k2, k3⟩ := i.wait c hc hw
    exact absurd rfl (k3 _ (ha c.id pre _ post k1 k2))
  | asks _ _ hw f hf' hs _ =>
    rw [hs, List.mem_append]
    constructor
    · rintro (h | h)
      · obtain ⟨m, hm, hm2⟩ := List.mem_filterMap.1 h
        split at hm2
        · rename_i hl
          cases hm2
          exact ⟨m, hm, rfl, rfl, hl⟩
        · cases hm2
      · exact absurd (hf' _ h) (by simp [Quiet])
    · rintro ⟨m, hm, rfl, rfl, hl⟩
      exact Or.inl (List.mem_filterMap.2 ⟨m, hm, by rw [if_pos hl]⟩)

/-- One silent member blinds the broker: as long as somebody who was asked has not answered - also if it has left in good
order or was given up long ago - nobody else is asked. -/
theorem C59_blind (b0 : Node) (hf : Fresh b0) (pre : List Ev) (s s2 : Int) (mid : List Ev) (e : Ev)
    (hr : RootRun b0 (pre ++ .tick s s2 :: mid)) (x : Id) (hp : Pinged x (run b0 pre) (.tick s s2))
    (hm : ∀ e ∈ mid, e ≠ .reply x) (y : Id) : ¬ Pinged y (run b0 (pre ++ .tick s s2 :: mid)) e := by
  rintro ⟨k, hk⟩
  by_cases ht : ∃ a c, e = .tick a c
  · obtain ⟨t, t2, rfl⟩ := ht
    have i := rinv b0 hf _ hr
    have pw : (run b0 (pre ++ .tick s s2 :: mid)).parent.waiting = false := by rw [i.parent]; exact hf.2.2.1
    obtain ⟨c, hc, k1, k2, k3⟩ := open_question b0 hf pre s s2 mid hr x hp hm
    obtain ⟨tk, _⟩ := tick_root (run b0 (pre ++ .tick s s2 :: mid)) t t2 i.core i.root pw i.says
    cases tk with
    | missed _ hs _ => rw [hs] at hk; cases hk
    | asks _ _ hw _ _ _ _ => rw [hw c hc] at k2; cases k2
    | waits _ _ _ hs _ =>
      rw [hs] at hk
      obtain ⟨d, _, hd⟩ := List.mem_filterMap.1 hk
      split at hd
      · split at hd <;> cases hd
      · cases hd
  · exact sent_quiet _ e (fun a c q => ht ⟨a, c, q⟩) _ hk

/-- A busy broker or core watches nobody: a tick that comes after any other command is not acted upon, whether or not the
forwarding of ticks was requested. -/
theorem C59_busy (b0 : Node) (h0 : b0.since = 0) (es : List Ev) (hn : ¬ Heard es) (t t2 : Int) :
    sent (run b0 es) (.tick t t2) = [] := by
  have hz : (run b0 es).since ≠ 0 := fun k => hn ((since_heard b0 h0 es).1 k)
  unfold sent
  show (tickCmd (run b0 es) t t2).out.drop _ = []
  unfold tickCmd
  rw [if_neg (fun k => hz k.1)]
  simp

/-! ## Other nodes, and the broker above -/

/-- the parts of a tick that concern the broker above -/
theorem tick_above (b : Node) (t t2 : Int) (hc : b.conns = []) (hr : b.root = false) (hh : b.since = 0) (ho : b.operating = true) :
    ((handle b (.tick t t2)).conns = []) ∧ ((handle b (.tick t t2)).root = false) ∧ ((handle b (.tick t t2)).isCore = b.isCore) ∧
    ((handle b (.tick t t2)).timeout = b.timeout) ∧ ((handle b (.tick t t2)).parent.id = b.parent.id) ∧
    (if b.parent.waiting = true then
        (handle b (.tick t t2)).parent = b.parent ∧ sent b (.tick t t2) = [if t - b.parent.last > b.timeout then .parentLost else .againParent]
      else if b.linked = true ∧ b.higher = true then
        (handle b (.tick t t2)).parent = { b.parent with waiting := true, last := if b.isCore then t2 else t } ∧
          sent b (.tick t t2) = [.pingParent]
      else (handle b (.tick t t2)).parent = b.parent ∧ ∀ o ∈ sent b (.tick t t2), o = .check) := by
  have e0 : handle b (.tick t t2) = { (if b.isCore then b.tickCore t t2 else b.tickBroker t t2) with since := 0 } := by
    show tickCmd b t t2 = _
    unfold tickCmd
    rw [if_pos ⟨hh, ho⟩]
  have hl : ∀ b' : Node, b'.conns = [] → b'.tickLinks t = b' := by
    intro b' h
    cases b'
    dsimp only at h
    subst h
    unfold tickLinks
    simp
  unfold sent
  rw [e0]
  by_cases hw : b.parent.waiting = true
  · rw [if_pos hw]
    have e1 : (if b.isCore then b.tickCore t t2 else b.tickBroker t t2) = b.tickParent t := by
      split
      · unfold tickCore; rw [if_pos hw]
      · unfold tickBroker
        simp only [hr, hw, Bool.not_false, Bool.and_self, if_true, Bool.true_or]
        refine hl _ ?_
        unfold tickParent send
        split <;> exact hc
    rw [e1]
    unfold tickParent send
    split
    · exact ⟨hc, hr, rfl, rfl, rfl, rfl, drop_append _ _⟩
    · exact ⟨hc, hr, rfl, rfl, rfl, rfl, drop_append _ _⟩
  · rw [if_neg hw]
    have hw' : b.parent.waiting = false := by simpa using hw
    have e1 : (if b.isCore then b.tickCore t t2 else b.tickBroker t t2) =
        if b.linked then b.askParent (if b.isCore then t2 else t) else b.awaitConn t := by
      cases hk : b.isCore
      · simp only [Bool.false_eq_true, if_false]
        unfold tickBroker
        simp only [hr, hw', hc, Bool.not_false, Bool.and_false, Bool.false_eq_true, if_false, List.any_nil, Bool.or_self, hl b hc]
      · simp only [if_true]
        unfold tickCore
        rw [if_neg hw]
    rw [e1]
    cases hlk : b.linked
    · simp only [Bool.false_eq_true, if_false, false_and]
      unfold awaitConn send
      split
      · split
        · exact ⟨hc, hr, rfl, rfl, rfl, rfl, by intro o ho'; rw [drop_append] at ho'; exact List.mem_singleton.1 ho'⟩
        · exact ⟨hc, hr, rfl, rfl, rfl, rfl, by simp⟩
      · exact ⟨hc, hr, rfl, rfl, rfl, rfl, by simp⟩
    · simp only [if_true, true_and]
      unfold askParent send
      split
      · exact ⟨hc, hr, rfl, rfl, rfl, rfl, drop_append _ _⟩
      · exact ⟨hc, hr, rfl, rfl, rfl, rfl, by simp⟩

theorem tick_unheard (b : Node) (t t2 : Int) (h : ¬ (b.since = 0 ∧ b.operating = true)) :
    handle b (.tick t t2) = { b with since := 0 } := by
  show tickCmd b t t2 = _
  unfold tickCmd
  rw [if_neg h]

/-- what commands other than ticks do at a core or at a broker that is not the root -/
theorem nontick (b : Node) (e : Ev) (hc : b.conns = []) (he : ∀ a c, e ≠ .tick a c) :
    (handle b e).conns = [] ∧ (handle b e).root = b.root ∧ (handle b e).isCore = b.isCore ∧ (handle b e).timeout = b.timeout ∧
    (((∀ p s, e ≠ .acknowledged p s) → (handle b e).parent.id = b.parent.id) ∧
     ((handle b e).parent.waiting = true → (handle b e).parent = b.parent ∧ e ≠ .reply b.parent.id ∧ ∀ p s, e ≠ .acknowledged p s)) ∧
    ((∀ p s, e ≠ .acknowledged p s) → e ≠ .reply b.parent.id → (handle b e).parent = b.parent) := by
  cases e with
  | tick a c => exact absurd rfl (he a c)
  | reply x =>
    obtain ⟨f1, f2, f3, f4, f5, f6, f7, f8⟩ := pingReply_frame b x
    refine ⟨?_, f6, f5, f4, ⟨fun _ => f2, fun hw => ?_⟩, fun _ hx => ?_⟩
    · show (b.pingReply x).conns = []
      rw [f8, hc]; split <;> rfl
    · by_cases hx : x = b.parent.id
      · exfalso
        have : (handle b (.reply x)).parent.waiting = false := by
          show (b.pingReply x).parent.waiting = false
          unfold pingReply; rw [if_pos hx]
        rw [this] at hw; cases hw
      · refine ⟨?_, fun k => hx (by injection k), fun p s k => by cases k⟩
        show (b.pingReply x).parent = b.parent
        unfold pingReply; rw [if_neg hx]; dsimp only; split <;> rfl
    · have hx' : x ≠ b.parent.id := fun k => hx (by rw [k])
      show (b.pingReply x).parent = b.parent
      unfold pingReply; rw [if_neg hx']; dsimp only; split <;> rfl
  | join m =>
    have : handle b (.join m) = { b with since := b.since + 1 } ∨ handle b (.join m) = { b with members := b.members ++ [m], since := b.since + 1 } := by
      show (if _ then _ else _) = _ ∨ (if _ then _ else _) = _
      split
      · exact Or.inl rfl
      · exact Or.inr rfl
    rcases this with k | k <;> rw [k] <;>
      exact ⟨hc, rfl, rfl, rfl, ⟨fun _ => rfl, fun _ => ⟨rfl, (fun k => by cases k), (fun p s k => by cases k)⟩⟩, fun _ _ => rfl⟩
  | connError x =>
    obtain ⟨f1, f2, f3, f4, f5, f6⟩ := connError_frame b x
    refine ⟨f1.trans hc, f6, f5, f4, ⟨fun _ => ?_, fun _ => ⟨f3, (fun k => by cases k), (fun p s k => by cases k)⟩⟩, fun _ _ => f3⟩
    show (b.connError x).parent.id = _
    rw [f3]
  | acknowledged p s =>
    refine ⟨?_, rfl, rfl, rfl, ⟨fun k => absurd rfl (k p s), (fun hw => by cases hw)⟩, fun k => absurd rfl (k p s)⟩
    show (b.conns.map _) = []
    rw [hc]; rfl
  | state x s => exact ⟨hc, rfl, rfl, rfl, ⟨fun _ => rfl, fun _ => ⟨rfl, (fun k => by cases k), (fun p s k => by cases k)⟩⟩, fun _ _ => rfl⟩
  | brokerPing => exact ⟨hc, rfl, rfl, rfl, ⟨fun _ => rfl, fun _ => ⟨rfl, (fun k => by cases k), (fun p s k => by cases k)⟩⟩, fun _ _ => rfl⟩
  | operate on => exact ⟨hc, rfl, rfl, rfl, ⟨fun _ => rfl, fun _ => ⟨rfl, (fun k => by cases k), (fun p s k => by cases k)⟩⟩, fun _ _ => rfl⟩
  | other => exact ⟨hc, rfl, rfl, rfl, ⟨fun _ => rfl, fun _ => ⟨rfl, (fun k => by cases k), (fun p s k => by cases k)⟩⟩, fun _ _ => rfl⟩

structure AInv (b0 : Node) (es : List Ev) : Prop where
  conns : (run b0 es).conns = []
  root : (run b0 es).root = false
  core : (run b0 es).isCore = b0.isCore
  timeout : (run b0 es).timeout = b0.timeout
  wait : (run b0 es).parent.waiting = true → ∃ pre s s2 post, es = pre ++ .tick s s2 :: post ∧
    Out.pingParent ∈ sent (run b0 pre) (.tick s s2) ∧ (run b0 es).parent.last = (if b0.isCore then s2 else s) ∧
    (run b0 pre).parent.id = (run b0 es).parent.id ∧
    ∀ e ∈ post, e ≠ .reply (run b0 pre).parent.id ∧ ∀ p s, e ≠ .acknowledged p s

theorem ainv (b0 : Node) (hf : Fresh b0) (hr : b0.root = false) (es : List Ev) : AInv b0 es := by
  induction es using snoc_ind with
  | h0 => exact ⟨hf.1, hr, rfl, rfl, fun h => by rw [show run b0 [] = b0 from rfl, hf.2.2.1] at h; cases h⟩
  | h1 es e i =>
    have old : (handle (run b0 es) e).parent = (run b0 es).parent → (e ≠ .reply (run b0 es).parent.id) → (∀ p s, e ≠ .acknowledged p s) →
        (run b0 es).parent.waiting = true → ∃ pre s s2 post, es ++ [e] = pre ++ .tick s s2 :: post ∧
        Out.pingParent ∈ sent (run b0 pre) (.tick s s2) ∧ (handle (run b0 es) e).parent.last = (if b0.isCore then s2 else s) ∧
        (run b0 pre).parent.id = (handle (run b0 es) e).parent.id ∧
        ∀ e ∈ post, e ≠ .reply (run b0 pre).parent.id ∧ ∀ p s, e ≠ .acknowledged p s := by
      intro hp h1 h2 hw
      obtain ⟨pre, s, s2, post, k1, k2, k3, k4, k5⟩ := i.wait hw
      refine ⟨pre, s, s2, post ++ [e], by rw [k1]; simp, k2, by rw [hp]; exact k3, by rw [hp]; exact k4, fun x hx => ?_⟩
      rcases List.mem_append.1 hx with h | h
      · exact k5 x h
      · rw [List.mem_singleton.1 h, k4]; exact ⟨h1, h2⟩
    by_cases ht : ∃ a c, e = .tick a c
    · obtain ⟨t, t2, rfl⟩ := ht
      by_cases hh : (run b0 es).since = 0 ∧ (run b0 es).operating = true
      · obtain ⟨h1, h2, h3, h4, h5, h6⟩ := tick_above (run b0 es) t t2 i.conns i.root hh.1 hh.2
        refine ⟨?_, ?_, ?_, ?_, ?_⟩ <;> rw [run_snoc]
        · exact h1
        · exact h2
        · rw [h3]; exact i.core
        · rw [h4]; exact i.timeout
        · intro hw
          by_cases w : (run b0 es).parent.waiting = true
          · rw [if_pos w] at h6
            exact old h6.1 (fun k => by cases k) (fun p s k => by cases k) w
          · rw [if_neg w] at h6
            split at h6
            · refine ⟨es, t, t2, [], rfl, by rw [h6.2]; simp, by rw [h6.1, i.core], h5.symm, by simp⟩
            · rw [h6.1] at hw; exact absurd hw w
      · have e' := tick_unheard (run b0 es) t t2 hh
        refine ⟨?_, ?_, ?_, ?_, ?_⟩ <;> rw [run_snoc]
        · rw [e']; exact i.conns
        · rw [e']; exact i.root
        · rw [e']; exact i.core
        · rw [e']; exact i.timeout
        · intro hw
          exact old (by rw [e']) (fun k => by cases k) (fun p s k => by cases k) (by rw [e'] at hw; exact hw)
    · obtain ⟨h1, h2, h3, h4, ⟨h5, h6⟩, h7⟩ := nontick (run b0 es) e i.conns (fun a c k => ht ⟨a, c, k⟩)
      refine ⟨?_, ?_, ?_, ?_, ?_⟩ <;> rw [run_snoc]
      · exact h1
      · rw [h2]; exact i.root
      · rw [h3]; exact i.core
      · rw [h4]; exact i.timeout
      · intro hw
        obtain ⟨j1, j2, j3⟩ := h6 hw
        exact old j1 j2 j3 (by rw [j1] at hw; exact hw)

/-- A core or a broker that is not the root gives up the broker above only if it asked it more than the time-out ago and has
had no answer since. -/
theorem C59_above_no_false_alarm (b0 : Node) (hf : Fresh b0) (hr : b0.root = false) (es : List Ev) (hk : Clock es) (t t2 : Int)
    (h : Out.parentLost ∈ sent (run b0 es) (.tick t t2)) :
    ∃ pre s s2 post, es = pre ++ .tick s s2 :: post ∧ Out.pingParent ∈ sent (run b0 pre) (.tick s s2) ∧ t - s > b0.timeout ∧
      ∀ e ∈ post, e ≠ .reply (run b0 pre).parent.id := by
  have i := ainv b0 hf hr es
  by_cases hh : (run b0 es).since = 0 ∧ (run b0 es).operating = true
  · obtain ⟨h1, h2, h3, h4, h5, h6⟩ := tick_above (run b0 es) t t2 i.conns i.root hh.1 hh.2
    by_cases w : (run b0 es).parent.waiting = true
    · rw [if_pos w] at h6
      rw [h6.2] at h
      split at h
      · rename_i hto
        obtain ⟨pre, s, s2, post, k1, k2, k3, k4, k5⟩ := i.wait w
        refine ⟨pre, s, s2, post, k1, k2, ?_, fun e he => (k5 e he).1⟩
        rw [i.timeout, k3] at hto
        have : s ≤ s2 := hk _ (by rw [k1]; simp) s s2 rfl
        split at hto <;> omega
      · simp at h
    · rw [if_neg w] at h6
      split at h6
      · rw [h6.2] at h; simp at h
      · have := h6.2 _ h; cases this
  · unfold sent at h
    rw [tick_unheard _ _ _ hh] at h
    simp at h

theorem above_open (b0 : Node) (hf : Fresh b0) (hr : b0.root = false) (pre : List Ev) (s s2 : Int) (mid : List Ev)
    (hp : Out.pingParent ∈ sent (run b0 pre) (.tick s s2))
    (hm : ∀ e ∈ mid, e ≠ .reply (run b0 pre).parent.id ∧ ∀ p s, e ≠ .acknowledged p s) :
    (run b0 (pre ++ .tick s s2 :: mid)).parent = { (run b0 pre).parent with waiting := true, last := if b0.isCore then s2 else s } := by
  have e : pre ++ .tick s s2 :: mid = (pre ++ [.tick s s2]) ++ mid := by simp
  rw [e]
  have i := ainv b0 hf hr pre
  have base : (run b0 (pre ++ [.tick s s2])).parent = { (run b0 pre).parent with waiting := true, last := if b0.isCore then s2 else s } := by
    rw [run_snoc]
    by_cases hh : (run b0 pre).since = 0 ∧ (run b0 pre).operating = true
    · obtain ⟨h1, h2, h3, h4, h5, h6⟩ := tick_above (run b0 pre) s s2 i.conns i.root hh.1 hh.2
      split at h6
      · rw [h6.2] at hp; split at hp <;> simp at hp
      · split at h6
        · rw [h6.1, i.core]
        · have := h6.2 _ hp; cases this
    · unfold sent at hp
      rw [tick_unheard _ _ _ hh] at hp
      simp at hp
  induction mid using snoc_ind with
  | h0 => rw [List.append_nil]; exact base
  | h1 mid e' ih =>
    have ih' := ih (fun y hy => hm y (by simp [hy])) (by simp)
    rw [← List.append_assoc, run_snoc]
    have j := ainv b0 hf hr ((pre ++ [.tick s s2]) ++ mid)
    by_cases ht : ∃ a c, e' = .tick a c
    · obtain ⟨t, t2, rfl⟩ := ht
      by_cases hh : (run b0 ((pre ++ [.tick s s2]) ++ mid)).since = 0 ∧ (run b0 ((pre ++ [.tick s s2]) ++ mid)).operating = true
      · obtain ⟨h1, h2, h3, h4, h5, h6⟩ := tick_above _ t t2 j.conns j.root hh.1 hh.2
        rw [if_pos (by rw [ih'])] at h6
        rw [h6.1]; exact ih'
      · rw [tick_unheard _ _ _ hh]; exact ih'
    · obtain ⟨h1, h2, h3, h4, ⟨h5, h6⟩, h7⟩ := nontick _ e' j.conns (fun a c k => ht ⟨a, c, k⟩)
      obtain ⟨m1, m2⟩ := hm e' (by simp)
      rw [h7 m2 (by rw [ih']; exact m1)]
      exact ih'

/-- A core or a broker that is not the root notices that the broker above is lost. -/
theorem C59_above_noticed (b0 : Node) (hf : Fresh b0) (hr : b0.root = false) (pre : List Ev) (s s2 : Int) (mid : List Ev) (t t2 : Int)
    (hle : s ≤ s2) (hp : Out.pingParent ∈ sent (run b0 pre) (.tick s s2))
    (hm : ∀ e ∈ mid, e ≠ .reply (run b0 pre).parent.id ∧ ∀ p s, e ≠ .acknowledged p s)
    (hh : Heard (pre ++ .tick s s2 :: mid)) (ho : (run b0 (pre ++ .tick s s2 :: mid)).operating = true) :
    (t - s2 > b0.timeout → Out.parentLost ∈ sent (run b0 (pre ++ .tick s s2 :: mid)) (.tick t t2)) ∧
    (t - s ≤ b0.timeout → Out.againParent ∈ sent (run b0 (pre ++ .tick s s2 :: mid)) (.tick t t2)) := by
  have i := ainv b0 hf hr (pre ++ .tick s s2 :: mid)
  have hz := (since_heard b0 hf.2.2.2 _).2 hh
  have hpar := above_open b0 hf hr pre s s2 mid hp hm
  obtain ⟨h1, h2, h3, h4, h5, h6⟩ := tick_above _ t t2 i.conns i.root hz ho
  rw [if_pos (by rw [hpar]), i.timeout, hpar] at h6
  dsimp only at h6
  rw [h6.2]
  constructor
  · intro k
    rw [if_pos (by split <;> omega)]; simp
  · intro k
    rw [if_neg (by split <;> omega)]; simp

/-- A core or a broker that is not the root asks the broker above whenever no question to it is open. -/
theorem C59_above_asked (b0 : Node) (hf : Fresh b0) (hr : b0.root = false) (es : List Ev) (t t2 : Int) (hh : Heard es)
    (ho : (run b0 es).operating = true) (hl : (run b0 es).linked = true) (hu : (run b0 es).higher = true)
    (ha : ∀ pre p post, es = pre ++ p :: post → Out.pingParent ∈ sent (run b0 pre) p → .reply (run b0 pre).parent.id ∈ post) :
    Out.pingParent ∈ sent (run b0 es) (.tick t t2) := by
  have i := ainv b0 hf hr es
  have hz := (since_heard b0 hf.2.2.2 _).2 hh
  obtain ⟨h1, h2, h3, h4, h5, h6⟩ := tick_above _ t t2 i.conns i.root hz ho
  by_cases w : (run b0 es).parent.waiting = true
  · obtain ⟨pre, s, s2, post, k1, k2, k3, k4, k5⟩ := i.wait w
    exact absurd rfl (k5 _ (ha pre _ post k1 k2)).1
  · rw [if_neg w, if_pos ⟨hl, hu⟩] at h6
    rw [h6.2]; simp

/-- A core or a broker that is not the root asks nobody below it, not even when the root asks it to do so. -/
theorem C59_below_unwatched (b0 : Node) (hf : Fresh b0) (hr : b0.root = false) (es : List Ev) (e : Ev) (x : Id) :
    ¬ Pinged x (run b0 es) e ∧ Out.lost x ∉ sent (run b0 es) e := by
  have i := ainv b0 hf hr es
  by_cases ht : ∃ a c, e = .tick a c
  · obtain ⟨t, t2, rfl⟩ := ht
    by_cases hh : (run b0 es).since = 0 ∧ (run b0 es).operating = true
    · obtain ⟨h1, h2, h3, h4, h5, h6⟩ := tick_above (run b0 es) t t2 i.conns i.root hh.1 hh.2
      have key : ∀ o ∈ sent (run b0 es) (.tick t t2), o = .parentLost ∨ o = .againParent ∨ o = .pingParent ∨ o = .check := by
        intro o ho
        split at h6
        · rw [h6.2] at ho
          have := List.mem_singleton.1 ho
          split at this
          · exact Or.inl this
          · exact Or.inr (Or.inl this)
        · split at h6
          · rw [h6.2] at ho; exact Or.inr (Or.inr (Or.inl (List.mem_singleton.1 ho)))
          · exact Or.inr (Or.inr (Or.inr (h6.2 o ho)))
      constructor
      · rintro ⟨c, hc⟩
        rcases key _ hc with k | k | k | k <;> cases k
      · intro hc
        rcases key _ hc with k | k | k | k <;> cases k
    · have : sent (run b0 es) (.tick t t2) = [] := by
        unfold sent; rw [tick_unheard _ _ _ hh]; simp
      unfold Pinged
      rw [this]
      exact ⟨(fun ⟨c, hc⟩ => by cases hc), (fun hc => by cases hc)⟩
  · have q := sent_quiet (run b0 es) e (fun a c k => ht ⟨a, c, k⟩)
    exact ⟨fun ⟨c, hc⟩ => q _ hc, fun hc => q _ hc⟩

/-! ## What is done about a lost connection -/

/-- A report about a member that has left in good order is ignored; otherwise the member is dropped if somebody has left
already, and if not the root fails the federation and any other broker passes the report on. -/
theorem C59_reported (b : Node) (x : Id) :
    sent b (.connError x) =
      if ∃ m ∈ b.members, m.id = x ∧ m.state = .disconnected then []
      else if ∃ m ∈ b.members, m.state = .disconnected then [.drop x]
      else if b.root = true then [.fail] else [.passUp x] := by
  have e1 : (b.members.any (fun m => m.state == .disconnected && m.id == x) = true) ↔ ∃ m ∈ b.members, m.id = x ∧ m.state = .disconnected := by
    rw [List.any_eq_true]
    constructor
    · rintro ⟨m, hm, k⟩
      rw [Bool.and_eq_true] at k
      exact ⟨m, hm, by simpa using k.2, by simpa using k.1⟩
    · rintro ⟨m, hm, k1, k2⟩
      exact ⟨m, hm, by simp [k1, k2]⟩
  have e2 : (b.members.any (fun m => m.state == .disconnected) = true) ↔ ∃ m ∈ b.members, m.state = .disconnected := by
    rw [List.any_eq_true]
    constructor
    · rintro ⟨m, hm, k⟩
      exact ⟨m, hm, by simpa using k⟩
    · rintro ⟨m, hm, k1⟩
      exact ⟨m, hm, by simp [k1]⟩
  unfold sent
  show (b.connError x).out.drop _ = _
  unfold connError
  simp only [e1, e2]
  split
  · simp
  · split
    · exact drop_append _ _
    · split
      · exact drop_append _ _
      · exact drop_append _ _

end Ping
end Verif
