import Verif.Lemmas.Timeout
namespace Verif
namespace Ping
open Node

theorem connError_frame (b : Node) (x : Id) :
    (b.connError x).conns = b.conns ∧ (b.connError x).members = b.members ∧ (b.connError x).parent = b.parent ∧
      (b.connError x).timeout = b.timeout ∧ (b.connError x).isCore = b.isCore ∧ (b.connError x).root = b.root := by
  unfold connError
  repeat' split
  all_goals exact ⟨rfl, rfl, rfl, rfl, rfl, rfl⟩

theorem pingReply_frame (b : Node) (x : Id) :
    (b.pingReply x).members = b.members ∧ (b.pingReply x).parent.id = b.parent.id ∧ (b.parent.waiting = false → (b.pingReply x).parent = b.parent) ∧
      (b.pingReply x).timeout = b.timeout ∧ (b.pingReply x).isCore = b.isCore ∧ (b.pingReply x).root = b.root ∧
      (b.pingReply x).operating = b.operating ∧
      ((b.pingReply x).conns = if x = b.parent.id then b.conns else b.conns.map fun c => if c.id = x then { c with waiting := false } else c) := by
  unfold pingReply
  split
  · refine ⟨rfl, rfl, fun h => ?_, rfl, rfl, rfl, rfl, rfl⟩
    cases hb : b.parent with
    | mk i w a n l => rw [hb] at h; simp_all
  · dsimp only
    split <;> exact ⟨rfl, rfl, fun _ => rfl, rfl, rfl, rfl, rfl, rfl⟩

/-- neither questions nor alarms -/
def Quiet (o : Out) : Prop :=
  match o with
  | .ping .. | .again .. | .lost .. | .pingParent | .againParent | .parentLost | .check => False
  | _ => True

theorem drop_append {α : Type} (l m : List α) : (l ++ m).drop l.length = m := by simp

/-- commands other than ticks ask and report nothing -/
theorem sent_quiet (b : Node) (e : Ev) (h : ∀ a c, e ≠ .tick a c) : ∀ o ∈ sent b e, Quiet o := by
  have key : ∀ l : List Out, (handle b e).out = b.out ++ l → (∀ o ∈ l, Quiet o) → ∀ o ∈ sent b e, Quiet o := by
    intro l h1 h2 o ho
    unfold sent at ho
    rw [h1, drop_append] at ho
    exact h2 o ho
  have zero : (handle b e).out = b.out → ∀ o ∈ sent b e, Quiet o := fun h => key [] (by rw [h]; simp) (by simp)
  cases e with
  | tick a c => exact absurd rfl (h a c)
  | reply x =>
    have : (b.pingReply x).out = b.out ∨ (b.pingReply x).out = b.out ++ [.forward false] := by
      unfold pingReply
      split
      · exact Or.inl rfl
      · dsimp only
        split
        · exact Or.inr rfl
        · exact Or.inl rfl
    rcases this with k | k
    · exact zero k
    · exact key _ k (by simp [Quiet])
  | join m =>
    refine zero ?_
    unfold handle; dsimp only
    split <;> rfl
  | connError x =>
    have : (b.connError x).out = b.out ∨ ∃ o, Quiet o ∧ (b.connError x).out = b.out ++ [o] := by
      unfold connError
      split
      · exact Or.inl rfl
      · split
        · exact Or.inr ⟨.drop x, trivial, rfl⟩
        · split
          · exact Or.inr ⟨.fail, trivial, rfl⟩
          · exact Or.inr ⟨.passUp x, trivial, rfl⟩
    rcases this with k | ⟨o, k1, k2⟩
    · exact zero k
    · exact key _ k2 (by simp [k1])
  | state x s => exact zero rfl
  | acknowledged p s => exact zero rfl
  | brokerPing => exact zero rfl
  | operate on => exact zero rfl
  | other => exact zero rfl

/-- what a tick leads to at a root broker -/
inductive Tick (b : Node) (now now2 : Int) : Prop
  | missed (h : b.since ≠ 0 ∨ b.operating = false) (hs : sent b (.tick now now2) = []) (hc : (handle b (.tick now now2)).conns = b.conns)
  | waits (h : b.since = 0) (ho : b.operating = true) (hw : ∃ c ∈ b.conns, c.waiting = true)
      (hs : sent b (.tick now now2) = b.conns.filterMap fun c =>
        if c.waiting then some (if now - c.last > b.timeout then .lost c.id else .again c.id) else none)
      (hc : (handle b (.tick now now2)).conns = b.conns)
  | asks (h : b.since = 0) (ho : b.operating = true) (hw : ∀ c ∈ b.conns, c.waiting = false) (f : List Out) (hf : ∀ o ∈ f, Quiet o)
      (hs : sent b (.tick now now2) = (b.members.filterMap fun m =>
        if m.state.live = true ∧ m.noPing = false then some (.ping m.id m.core) else none) ++ f)
      (hc : (handle b (.tick now now2)).conns = (b.members.foldl (pingOne now2) b).conns)

theorem tick_root (b : Node) (now now2 : Int) (hcore : b.isCore = false) (hr : b.root = true) (hp : b.parent.waiting = false)
    (hs : Says b) :
    Tick b now now2 ∧ (handle b (.tick now now2)).members = b.members ∧ (handle b (.tick now now2)).parent = b.parent ∧
      (handle b (.tick now now2)).operating = b.operating ∧ (handle b (.tick now now2)).timeout = b.timeout ∧
      (handle b (.tick now now2)).isCore = b.isCore ∧ (handle b (.tick now now2)).root = b.root := by
  have hlinks : ∀ l, (tickLinks b now) = { b with out := l } → (tickLinks b now) = { b with out := l } := fun _ h => h
  by_cases hh : b.since = 0 ∧ b.operating = true
  · have e0 : handle b (.tick now now2) = { tickBroker b now now2 with since := 0 } := by
      show tickCmd b now now2 = _
      unfold tickCmd
      rw [if_pos hh, hcore]; simp
    by_cases hw : b.conns.any (·.waiting) = true
    · have e : tickBroker b now now2 = tickLinks b now := by
        unfold tickBroker
        simp [hp, hw, hr]
      rw [e] at e0
      refine ⟨.waits hh.1 hh.2 ?_ ?_ ?_, ?_⟩
      · rw [List.any_eq_true] at hw; exact hw
      · unfold sent; rw [e0]; exact drop_append _ _
      · rw [e0]; rfl
      · rw [e0]; exact ⟨rfl, rfl, rfl, rfl, rfl, rfl⟩
    · have hw' : ∀ c ∈ b.conns, c.waiting = false := by
        intro c hc
        cases h : c.waiting
        · rfl
        · exact absurd (List.any_eq_true.2 ⟨c, hc, h⟩) hw
      have e1 : tickLinks b now = b := by
        unfold tickLinks
        have : (b.conns.filterMap fun c =>
          if c.waiting then some (if now - c.last > b.timeout then Out.lost c.id else Out.again c.id) else none) = [] := by
          rw [List.filterMap_eq_nil_iff]
          intro c hc; simp [hw' c hc]
        rw [this]; simp
      have e : tickBroker b now now2 = pingSub b now2 := by
        unfold tickBroker
        simp [hp, hw, hr, e1]
      rw [e] at e0
      obtain ⟨q1, q2, q3, q4, q5, q6, q7, q8, q9, q10, q11⟩ := pingAll_spec now2 b.members b hs.2.1 hs.2.2
      have fr : (pingSub b now2).conns = (b.members.foldl (pingOne now2) b).conns ∧ (pingSub b now2).members = b.members ∧
          (pingSub b now2).parent = b.parent ∧ (pingSub b now2).operating = b.operating ∧ (pingSub b now2).timeout = b.timeout ∧
          (pingSub b now2).isCore = b.isCore ∧ (pingSub b now2).root = b.root ∧
          ∃ f, (∀ o ∈ f, Quiet o) ∧ (pingSub b now2).out = (b.members.foldl (pingOne now2) b).out ++ f := by
        unfold pingSub
        dsimp only
        split
        · exact ⟨rfl, q5, q6, q7, q8, q9, q10, [.forward true], by simp [Quiet], rfl⟩
        · exact ⟨rfl, q5, q6, q7, q8, q9, q10, [], by simp, by simp⟩
      obtain ⟨r1, r2, r3, r4, r5, r6, r7, f, hf, r8⟩ := fr
      refine ⟨.asks hh.1 hh.2 hw' f hf ?_ ?_, ?_⟩
      · unfold sent
        rw [e0]
        show (pingSub b now2).out.drop _ = _
        rw [r8, q1, List.append_assoc, drop_append]
      · rw [e0]; exact r1
      · rw [e0]; exact ⟨r2, r3, r4, r5, r6, r7⟩
  · have e0 : handle b (.tick now now2) = { b with since := 0 } := by
      show tickCmd b now now2 = _
      unfold tickCmd
      rw [if_neg hh]
    refine ⟨.missed ?_ ?_ ?_, ?_⟩
    · by_cases k : b.since = 0
      · right
        cases ho : b.operating
        · rfl
        · exact absurd ⟨k, ho⟩ hh
      · exact Or.inl k
    · unfold sent; rw [e0]; simp
    · rw [e0]
    · rw [e0]; exact ⟨rfl, rfl, rfl, rfl, rfl, rfl⟩

/-! ## Histories of a root broker -/

structure RInv (b0 : Node) (es : List Ev) : Prop where
  says : Says (run b0 es)
  core : (run b0 es).isCore = false
  root : (run b0 es).root = true
  parent : (run b0 es).parent = b0.parent
  timeout : (run b0 es).timeout = b0.timeout
  ids : ∀ m ∈ (run b0 es).members, m.id ≠ b0.parent.id
  wait : ∀ c ∈ (run b0 es).conns, c.waiting = true → ∃ pre s post, es = pre ++ .tick s c.last :: post ∧
    Pinged c.id (run b0 pre) (.tick s c.last) ∧ ∀ e ∈ post, e ≠ .reply c.id

theorem rinv (b0 : Node) (hf : Fresh b0) (es : List Ev) (hr : RootRun b0 es) : RInv b0 es := by
  induction es using snoc_ind with
  | h0 =>
    refine ⟨⟨?_, ?_, ?_⟩, hr.1, hr.2.1, rfl, rfl, ?_, ?_⟩
    · show ∀ c ∈ b0.conns, _
      rw [hf.1]; simp
    · show ∀ c ∈ b0.conns, _
      rw [hf.1]; simp
    · show b0.members.Pairwise _
      rw [hf.2.1]; exact List.Pairwise.nil
    · show ∀ m ∈ b0.members, _
      rw [hf.2.1]; simp
    · show ∀ c ∈ b0.conns, _
      rw [hf.1]; simp
  | h1 es e ih =>
    have i := ih ⟨hr.1, hr.2.1, fun e he => hr.2.2 e (by simp [he])⟩
    obtain ⟨he1, he2⟩ := hr.2.2 e (by simp)
    have pw : (run b0 es).parent.waiting = false := by rw [i.parent]; exact hf.2.2.1
    -- keeping the old reasons
    have old : ∀ c : Link, (∃ d ∈ (run b0 es).conns, c.id = d.id ∧ c.last = d.last ∧ d.waiting = true) → e ≠ .reply c.id →
        ∃ pre s post, es ++ [e] = pre ++ .tick s c.last :: post ∧ Pinged c.id (run b0 pre) (.tick s c.last) ∧
          ∀ e ∈ post, e ≠ .reply c.id := by
      rintro c ⟨d, hd, k1, k2, k3⟩ hne
      obtain ⟨pre, s, post, j1, j2, j3⟩ := i.wait d hd k3
      rw [← k1, ← k2] at j2
      rw [← k2] at j1
      rw [← k1] at j3
      refine ⟨pre, s, post ++ [e], by rw [j1]; simp, j2, fun x hx => ?_⟩
      rcases List.mem_append.1 hx with h | h
      · exact j3 x h
      · rw [List.mem_singleton.1 h]; exact hne
    have same : (handle (run b0 es) e).conns = (run b0 es).conns → (handle (run b0 es) e).members = (run b0 es).members →
        (handle (run b0 es) e).isCore = (run b0 es).isCore → (handle (run b0 es) e).root = (run b0 es).root →
        (handle (run b0 es) e).parent = (run b0 es).parent → (handle (run b0 es) e).timeout = (run b0 es).timeout →
        (∀ x, e = .reply x → x = b0.parent.id) → RInv b0 (es ++ [e]) := by
      intro h1 h2 h3 h4 h5 h6 h7
      refine ⟨?_, ?_, ?_, ?_, ?_, ?_, ?_⟩ <;> rw [run_snoc]
      · unfold Says; rw [h1, h2]; exact i.says
      · rw [h3]; exact i.core
      · rw [h4]; exact i.root
      · rw [h5]; exact i.parent
      · rw [h6]; exact i.timeout
      · rw [h2]; exact i.ids
      · rw [h1]
        intro c hc hw
        refine old c ⟨c, hc, rfl, rfl, hw⟩ (fun k => ?_)
        have := h7 _ k
        obtain ⟨m, hm, hx⟩ := i.says.1 c hc
        exact i.ids m hm (hx.trans this)
    cases e with
    | acknowledged p s => exact absurd rfl (he1 p s)
    | brokerPing => exact same rfl rfl rfl rfl rfl rfl (fun x k => by cases k)
    | operate on => exact same rfl rfl rfl rfl rfl rfl (fun x k => by cases k)
    | other => exact same rfl rfl rfl rfl rfl rfl (fun x k => by cases k)
    | connError x =>
      obtain ⟨f1, f2, f3, f4, f5, f6⟩ := connError_frame (run b0 es) x
      exact same f1 f2 f5 f6 f3 f4 (fun x k => by cases k)
    | reply x =>
      obtain ⟨f1, f2, f3, f4, f5, f6, f7, f8⟩ := pingReply_frame (run b0 es) x
      by_cases hx : x = b0.parent.id
      · rw [i.parent, if_pos hx] at f8
        exact same f8 f1 f5 f6 (f3 pw) f4 (fun y k => by cases k; exact hx)
      · rw [i.parent, if_neg hx] at f8
        have hc : (handle (run b0 es) (.reply x)).conns = (run b0 es).conns.map fun c => if c.id = x then { c with waiting := false } else c := f8
        have hm : (handle (run b0 es) (.reply x)).members = (run b0 es).members := f1
        have back : ∀ c ∈ (handle (run b0 es) (.reply x)).conns, ∃ d ∈ (run b0 es).conns, c.id = d.id ∧ c.noPing = d.noPing ∧ c.last = d.last ∧
            (c.waiting = true → d.waiting = true ∧ c.id ≠ x) := by
          intro c h
          rw [hc, List.mem_map] at h
          obtain ⟨d, hd, rfl⟩ := h
          refine ⟨d, hd, ?_⟩
          split
          · exact ⟨rfl, rfl, rfl, fun k => by cases k⟩
          · rename_i hne; exact ⟨rfl, rfl, rfl, fun k => ⟨k, hne⟩⟩
        refine ⟨?_, ?_, ?_, ?_, ?_, ?_, ?_⟩ <;> rw [run_snoc]
        · refine ⟨fun c h => ?_, fun c h m hm' k => ?_, ?_⟩
          · obtain ⟨d, hd, k, _⟩ := back c h
            rw [hm, k]; exact i.says.1 d hd
          · obtain ⟨d, hd, k1, k2, _⟩ := back c h
            rw [hm] at hm'
            rw [k2]; exact i.says.2.1 d hd m hm' (k.trans k1)
          · rw [hm]; exact i.says.2.2
        · exact f5.trans i.core
        · exact f6.trans i.root
        · exact (f3 pw).trans i.parent
        · exact f4.trans i.timeout
        · rw [hm]; exact i.ids
        · intro c h hw
          obtain ⟨d, hd, k1, k2, k3, k4⟩ := back c h
          exact old c ⟨d, hd, k1, k3, (k4 hw).1⟩ (fun k => by cases k; exact (k4 hw).2 rfl)
    | join m =>
      by_cases hx : (run b0 es).members.any (fun x => x.id == m.id) = true
      · have e' : handle (run b0 es) (.join m) = { run b0 es with since := (run b0 es).since + 1 } := by
          show (if _ then _ else _) = _
          rw [if_pos hx]
        refine same ?_ ?_ ?_ ?_ ?_ ?_ (fun x k => by cases k) <;> rw [e']
      · have e' : handle (run b0 es) (.join m) = { run b0 es with members := (run b0 es).members ++ [m], since := (run b0 es).since + 1 } := by
          show (if _ then _ else _) = _
          rw [if_neg hx]
        have hne : ∀ n ∈ (run b0 es).members, n.id ≠ m.id := by
          intro n hn k
          exact hx (List.any_eq_true.2 ⟨n, hn, by simp [k]⟩)
        refine ⟨?_, ?_, ?_, ?_, ?_, ?_, ?_⟩ <;> rw [run_snoc, e']
        · refine ⟨fun c h => ?_, fun c h n hn k => ?_, ?_⟩
          · obtain ⟨n, hn, k⟩ := i.says.1 c h
            exact ⟨n, by simp [hn], k⟩
          · rcases List.mem_append.1 hn with hn | hn
            · exact i.says.2.1 c h n hn k
            · rw [List.mem_singleton.1 hn] at k
              obtain ⟨n', hn', k'⟩ := i.says.1 c h
              exact absurd (k'.trans k.symm) (hne n' hn')
          · show ((run b0 es).members ++ [m]).Pairwise _
            rw [List.pairwise_append]
            refine ⟨i.says.2.2, by simp, fun a ha c hc => ?_⟩
            rw [List.mem_singleton.1 hc]; exact hne a ha
        · exact i.core
        · exact i.root
        · exact i.parent
        · exact i.timeout
        · intro n hn
          rcases List.mem_append.1 hn with hn | hn
          · exact i.ids n hn
          · rw [List.mem_singleton.1 hn]; exact he2 m rfl
        · intro c h hw
          exact old c ⟨c, h, rfl, rfl, hw⟩ (fun k => by cases k)
    | state x s =>
      have e' : handle (run b0 es) (.state x s) = { run b0 es with
          members := (run b0 es).members.map (fun m => if m.id = x then { m with state := s } else m), since := (run b0 es).since + 1 } := rfl
      have fwd : ∀ n ∈ (run b0 es).members, (if n.id = x then { n with state := s } else n).id = n.id ∧
          (if n.id = x then { n with state := s } else n).noPing = n.noPing := by
        intro n _; split <;> exact ⟨rfl, rfl⟩
      refine ⟨?_, ?_, ?_, ?_, ?_, ?_, ?_⟩ <;> rw [run_snoc, e']
      · refine ⟨fun c h => ?_, fun c h n hn k => ?_, ?_⟩
        · obtain ⟨n, hn, k⟩ := i.says.1 c h
          exact ⟨_, List.mem_map.2 ⟨n, hn, rfl⟩, (fwd n hn).1.trans k⟩
        · obtain ⟨n', hn', rfl⟩ := List.mem_map.1 hn
          rw [(fwd n' hn').1] at k
          rw [(fwd n' hn').2]; exact i.says.2.1 c h n' hn' k
        · show ((run b0 es).members.map _).Pairwise _
          rw [List.pairwise_map]
          refine i.says.2.2.imp_of_mem ?_
          intro a c ha hc k
          rw [(fwd a ha).1, (fwd c hc).1]; exact k
      · exact i.core
      · exact i.root
      · exact i.parent
      · exact i.timeout
      · intro n hn
        obtain ⟨n', hn', rfl⟩ := List.mem_map.1 hn
        rw [(fwd n' hn').1]; exact i.ids n' hn'
      · intro c h hw
        exact old c ⟨c, h, rfl, rfl, hw⟩ (fun k => by cases k)
    | tick now now2 =>
      obtain ⟨t, f1, f2, f3, f4, f5, f6⟩ := tick_root (run b0 es) now now2 i.core i.root pw i.says
      cases t with
      | missed h hs hc => exact same hc f1 f5 f6 f2 f4 (fun x k => by cases k)
      | waits h ho hw hs hc => exact same hc f1 f5 f6 f2 f4 (fun x k => by cases k)
      | asks h ho hw f hf' hs hc =>
        obtain ⟨q1, q2, q3, q4, q5⟩ := pingAll_spec now2 (run b0 es).members (run b0 es) i.says.2.1 i.says.2.2
        rw [← hc] at q2 q3 q4
        refine ⟨?_, ?_, ?_, ?_, ?_, ?_, ?_⟩ <;> rw [run_snoc]
        · refine ⟨fun c h => ?_, fun c h n hn k => ?_, ?_⟩
          · rw [f1]
            rcases q2 c h with ⟨d, hd, k1, _⟩ | ⟨m, hm, k1, _⟩
            · rw [k1]; exact i.says.1 d hd
            · exact ⟨m, hm, k1.symm⟩
          · rw [f1] at hn
            rcases q2 c h with ⟨d, hd, k1, k2, _⟩ | ⟨m, hm, k1, k2, _⟩
            · rw [k2]; exact i.says.2.1 d hd n hn (k.trans k1)
            · have : n = m := by
                refine Classical.byContradiction (fun hne => ?_)
                exact absurd (k.trans k1) (by
                  have := i.says.2.2
                  rcases List.pairwise_iff_getElem.1 this with pw'
                  obtain ⟨a, ha, rfl⟩ := List.getElem_of_mem hn
                  obtain ⟨c', hc', rfl⟩ := List.getElem_of_mem hm
                  rcases Nat.lt_trichotomy a c' with h' | h' | h'
                  · exact pw' a c' ha hc' h'
                  · subst h'; exact absurd rfl hne
                  · exact fun q => pw' c' a hc' ha h' q.symm)
              rw [k2, this]
          · rw [f1]; exact i.says.2.2
        · rw [f5]; exact i.core
        · rw [f6]; exact i.root
        · rw [f2]; exact i.parent
        · rw [f4]; exact i.timeout
        · rw [f1]; exact i.ids
        · intro c h hw'
          have new : ∀ m ∈ (run b0 es).members, m.id = c.id → c.last = now2 → m.state.live = true → m.noPing = false →
              ∃ pre s post, es ++ [.tick now now2] = pre ++ .tick s c.last :: post ∧ Pinged c.id (run b0 pre) (.tick s c.last) ∧
                ∀ e ∈ post, e ≠ .reply c.id := by
            intro m hm k1 k2 k3 k4
            refine ⟨es, now, [], by rw [k2], ⟨m.core, ?_⟩, by simp⟩
            rw [k2, hs, List.mem_append]
            refine Or.inl (List.mem_filterMap.2 ⟨m, hm, ?_⟩)
            rw [if_pos ⟨k3, k4⟩, k1]
          rcases q2 c h with ⟨d, hd, k1, k2, k3⟩ | ⟨m, hm, k1, k2, k3⟩
          · rcases k3 hw' with ⟨k4, _⟩ | ⟨m, hm, j1, j2, j3, j4⟩
            · rw [hw d hd] at k4; cases k4
            · exact new m hm j1 j2 j3 j4
          · obtain ⟨j1, j2, j3⟩ := k3 hw'
            exact new m hm k1.symm j1 j2 j3

/-- a question stays open until it is answered -/
theorem still (b0 : Node) (hf : Fresh b0) (es : List Ev) (mid : List Ev) (hr : RootRun b0 (es ++ mid)) (x : Id) (s : Int)
    (h : ∃ c ∈ (run b0 es).conns, c.id = x ∧ c.waiting = true ∧ c.last = s) (hm : ∀ e ∈ mid, e ≠ .reply x) :
    ∃ c ∈ (run b0 (es ++ mid)).conns, c.id = x ∧ c.waiting = true ∧ c.last = s := by
  induction mid using snoc_ind with
  | h0 => rw [List.append_nil]; exact h
  | h1 mid e ih =>
    rw [← List.append_assoc] at hr ⊢
    have hr' : RootRun b0 (es ++ mid) := ⟨hr.1, hr.2.1, fun y hy => hr.2.2 y (by rw [List.mem_append]; exact Or.inl hy)⟩
    obtain ⟨c, hc, k1, k2, k3⟩ := ih hr' (fun y hy => hm y (by simp [hy]))
    have i := rinv b0 hf (es ++ mid) hr'
    have pw : (run b0 (es ++ mid)).parent.waiting = false := by rw [i.parent]; exact hf.2.2.1
    rw [run_snoc]
    have same : (handle (run b0 (es ++ mid)) e).conns = (run b0 (es ++ mid)).conns →
        ∃ c ∈ (handle (run b0 (es ++ mid)) e).conns, c.id = x ∧ c.waiting = true ∧ c.last = s := by
      intro h; rw [h]; exact ⟨c, hc, k1, k2, k3⟩
    cases e with
    | acknowledged p s' => exact absurd rfl ((hr.2.2 _ (by simp)).1 p s')
    | brokerPing => exact same rfl
    | operate on => exact same rfl
    | other => exact same rfl
    | connError y => exact same (connError_frame _ y).1
    | state y s' => exact same rfl
    | join m =>
      refine same ?_
      show (if _ then _ else _ : Node).conns = _
      split <;> rfl
    | reply y =>
      have hy : y ≠ x := fun k => hm (.reply y) (by simp) (by rw [k])
      have f8 := (pingReply_frame (run b0 (es ++ mid)) y).2.2.2.2.2.2.2
      by_cases hp : y = (run b0 (es ++ mid)).parent.id
      · rw [if_pos hp] at f8; exact same f8
      · rw [if_neg hp] at f8
        refine ⟨c, ?_, k1, k2, k3⟩
        show c ∈ ((run b0 (es ++ mid)).pingReply y).conns
        rw [f8, List.mem_map]
        exact ⟨c, hc, by rw [if_neg (by rw [k1]; exact fun q => hy q.symm)]⟩
    | tick now now2 =>
      obtain ⟨t, _⟩ := tick_root (run b0 (es ++ mid)) now now2 i.core i.root pw i.says
      cases t with
      | missed h hs hc' => exact same hc'
      | waits h ho hw hs hc' => exact same hc'
      | asks h ho hw f hf' hs hc' => rw [hw c hc] at k2; cases k2

/-- a question is open right after it is asked -/
theorem opened (b0 : Node) (hf : Fresh b0) (pre : List Ev) (s s2 : Int) (hr : RootRun b0 (pre ++ [.tick s s2])) (x : Id)
    (hp : Pinged x (run b0 pre) (.tick s s2)) :
    (∃ c ∈ (run b0 (pre ++ [.tick s s2])).conns, c.id = x ∧ c.waiting = true ∧ c.last = s2) ∧ x ≠ b0.parent.id := by
  have i := rinv b0 hf pre ⟨hr.1, hr.2.1, fun y hy => hr.2.2 y (by simp [hy])⟩
  have pw : (run b0 pre).parent.waiting = false := by rw [i.parent]; exact hf.2.2.1
  obtain ⟨t, _⟩ := tick_root (run b0 pre) s s2 i.core i.root pw i.says
  obtain ⟨k, hk⟩ := hp
  rw [run_snoc]
  cases t with
  | missed h hs hc => rw [hs] at hk; cases hk
  | waits h ho hw hs hc =>
    rw [hs] at hk
    obtain ⟨c, _, hc2⟩ := List.mem_filterMap.1 hk
    split at hc2
    · split at hc2 <;> cases hc2
    · cases hc2
  | asks h ho hw f hf' hs hc =>
    rw [hs] at hk
    rcases List.mem_append.1 hk with hk | hk
    · obtain ⟨m, hm, hm2⟩ := List.mem_filterMap.1 hk
      split at hm2
      · rename_i hl
        cases hm2
        obtain ⟨q1, q2, q3, q4, q5⟩ := pingAll_spec s2 (run b0 pre).members (run b0 pre) i.says.2.1 i.says.2.2
        rw [hc]
        exact ⟨q3 m hm hl.1 hl.2, i.ids m hm⟩
      · cases hm2
    · exact absurd (hf' _ hk) (by simp [Quiet])

/-- ticks are taken up when nothing but ticks was handled since the last -/
theorem since_heard (b0 : Node) (h0 : b0.since = 0) (es : List Ev) : (run b0 es).since = 0 ↔ Heard es := by
  induction es using snoc_ind with
  | h0 => exact ⟨fun _ => Or.inl rfl, fun _ => h0⟩
  | h1 es e _ =>
    rw [run_snoc]
    have pos : ∀ b : Node, (∀ a c, e ≠ .tick a c) → (handle b e).since = b.since + 1 := by
      intro b hne
      cases e with
      | tick a c => exact absurd rfl (hne a c)
      | join m => show (if _ then _ else _ : Node).since = _; split <;> rfl
      | _ => rfl
    by_cases ht : ∃ a c, e = .tick a c
    · obtain ⟨a, c, rfl⟩ := ht
      exact ⟨fun _ => Or.inr ⟨es, a, c, rfl⟩, fun _ => rfl⟩
    · rw [pos _ (fun a c k => ht ⟨a, c, k⟩)]
      constructor
      · intro k; omega
      · rintro (k | ⟨pre, a, c, k⟩)
        · simp at k
        · have := List.append_inj_right' k rfl
          exact absurd ⟨a, c, by simpa using this⟩ ht

end Ping
end Verif
