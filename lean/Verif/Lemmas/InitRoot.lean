import Verif.Lemmas.InitSys
/-! The start-up protocol: steps of the root broker -/
namespace Verif.Init

theorem NInv.root {b b' : Broker} {late : String → Prop} {n : Node} (h : NInv b late n)
    (hk : ∀ x g, b.Known x g → b'.Known x g) {up' : List Msg} (hu : ∀ m ∈ up', m ∈ n.up)
    {r : List Msg} (hr : ∀ m ∈ r, DownOk b' n.core m)
    (ht : ∀ k ∈ b'.brks, k.name = n.core.name →
      (if n.core.state = .connected then 1 else 0) + up'.countP Msg.isInit +
        (if k.state = .initRequested then 1 else 0) + (n.down.countP Msg.isGrant + r.countP Msg.isGrant) ≤ 1)
    (hg : ∀ k ∈ b'.brks, k.name = n.core.name → k.state = .disconnected → n.core.out) :
    NInv b' late { n with up := up', down := n.down ++ r } where
  dyn := h.dyn
  ident := h.ident.imp id (hk _ _)
  nofeds := h.nofeds
  delayed := h.delayed
  st := h.st
  ups := fun m hm => (h.ups m (hu m hm)).mono hk
  downs := by
    intro m hm
    rcases List.mem_append.mp hm with hm | hm
    · exact (h.downs m hm).mono hk
    · exact hr m hm
  tok := by
    intro k hk1 hk2
    have := ht k hk1 hk2
    unfold token
    rw [List.countP_append]
    exact this
  gone := hg
  asked := h.asked
  calls := h.calls
  wants := h.wants
  idle := h.idle
  wknown := h.wknown
  fnodup := h.fnodup
  uniq := h.uniq
  fresh := h.fresh

/-- the root sends nothing that matters -/
def Quiet (b' : Broker) (s : Sent) : Prop :=
  ∀ x ∈ s, x.2.isGrant = false ∧ ∀ c : Core, x.1.reaches c = true → DownOk b' c x.2

theorem quiet_count {b' : Broker} {s : Sent} (h : Quiet b' s) (c : Core) :
    ((s.filter (fun x => x.1.reaches c)).map (·.2)).countP Msg.isGrant = 0 := by
  rw [List.countP_eq_zero]
  intro m hm
  obtain ⟨x, hx, rfl⟩ := List.mem_map.mp hm
  rw [(h x (List.mem_filter.mp hx).1).1]
  simp

theorem quiet_down {b' : Broker} {s : Sent} (h : Quiet b' s) (c : Core) :
    ∀ m ∈ (s.filter (fun x => x.1.reaches c)).map (·.2), DownOk b' c m := by
  intro m hm
  obtain ⟨x, hx, rfl⟩ := List.mem_map.mp hm
  obtain ⟨h1, h2⟩ := List.mem_filter.mp hx
  exact (h x h1).2 c h2

theorem NInv.quiet {b b' : Broker} {late : String → Prop} {n : Node} (h : NInv b late n)
    (hk : ∀ x g, b.Known x g → b'.Known x g) {up' : List Msg} (hu : ∀ m ∈ up', m ∈ n.up)
    {s : Sent} (hs : Quiet b' s)
    (ht : ∀ k ∈ b'.brks, k.name = n.core.name →
      (if n.core.state = .connected then 1 else 0) + up'.countP Msg.isInit +
        (if k.state = .initRequested then 1 else 0) + n.down.countP Msg.isGrant ≤ 1)
    (hg : ∀ k ∈ b'.brks, k.name = n.core.name → k.state = .disconnected → n.core.out) :
    NInv b' late (Node.receive { n with up := up' } s) := by
  refine h.root hk hu (quiet_down hs n.core) ?_ hg
  rw [quiet_count hs n.core]
  exact ht

/-- the whole federation before the start -/
structure SInv (late : Nat → String → Prop) (y : Sys) : Prop where
  root : RInv y.root
  nodes : ∀ (i : Nat) n, y.nodes[i]? = some n → NInv y.root (late i) n
  names : ∀ (i j : Nat) n n', y.nodes[i]? = some n → y.nodes[j]? = some n' →
    n.core.name = n'.core.name → i = j
  fedsOf : ∀ f ∈ y.root.feds, ∃ n ∈ y.nodes, ∃ g ∈ n.core.feds, g.name = f.name
  brksOf : ∀ k ∈ y.root.brks, ∃ n ∈ y.nodes, n.core.name = k.name

/-- what the root may do on a message from node `n` (number `i`), other than starting -/
structure RootOk (late : Nat → String → Prop) (y : Sys) (i : Nat) (n : Node) (up' : List Msg)
    (b' : Broker) (s : Sent) : Prop where
  root : RInv b'
  known : ∀ x g, y.root.Known x g → b'.Known x g
  mine : NInv b' (late i) (Node.receive { n with up := up' } s)
  others : ∀ (j : Nat) m, j ≠ i → m.core.name ≠ n.core.name → y.nodes[j]? = some m →
    NInv y.root (late j) m → NInv b' (late j) (Node.receive m s)
  fedsOf : ∀ f ∈ b'.feds, (∃ g ∈ y.root.feds, g.name = f.name) ∨ ∃ g ∈ n.core.feds, g.name = f.name
  brksOf : ∀ k ∈ b'.brks, (∃ g ∈ y.root.brks, g.name = k.name) ∨ n.core.name = k.name

theorem Node.receive_core (n : Node) (s : Sent) : (n.receive s).core = n.core := rfl

theorem SInv.up {late : Nat → String → Prop} {y : Sys} (h : SInv late y) {i : Nat} {n : Node}
    (hn : y.nodes[i]? = some n) {up' : List Msg} {b' : Broker} {s : Sent}
    (k : RootOk late y i n up' b' s) :
    SInv late { root := b', nodes := (y.nodes.set i { n with up := up' }).map (·.receive s) } := by
  have hi : i < y.nodes.length := (List.getElem?_eq_some_iff.mp hn).1
  have hget : ∀ (j : Nat) m, ((y.nodes.set i { n with up := up' }).map (·.receive s))[j]? = some m →
      (j = i ∧ m = Node.receive { n with up := up' } s) ∨
      (j ≠ i ∧ ∃ m0, y.nodes[j]? = some m0 ∧ m = m0.receive s) := by
    intro j m hm
    rw [List.getElem?_map, List.getElem?_set] at hm
    split at hm
    · rename_i e
      left
      exact ⟨e.symm, (Option.some.inj hm).symm⟩
    · rename_i e
      right
      refine ⟨fun e' => e e'.symm, ?_⟩
      cases hj : y.nodes[j]? with
      | none => rw [hj] at hm; cases hm
      | some m0 =>
        rw [hj] at hm
        exact ⟨m0, rfl, (Option.some.inj hm).symm⟩
  have hcore : ∀ (j : Nat) m, ((y.nodes.set i { n with up := up' }).map (·.receive s))[j]? = some m →
      ∃ m0, y.nodes[j]? = some m0 ∧ m.core = m0.core := by
    intro j m hm
    rcases hget j m hm with ⟨rfl, rfl⟩ | ⟨-, m0, h1, rfl⟩
    · exact ⟨n, hn, rfl⟩
    · exact ⟨m0, h1, rfl⟩
  have hback : ∀ m0 ∈ y.nodes, ∃ m ∈ (y.nodes.set i { n with up := up' }).map (·.receive s),
      m.core = m0.core := by
    intro m0 hm
    obtain ⟨j, hj⟩ := List.mem_iff_getElem?.mp hm
    by_cases e : j = i
    · subst e
      rw [hn] at hj
      cases hj
      exact ⟨Node.receive { n with up := up' } s,
        List.mem_map_of_mem (List.mem_set hi _), rfl⟩
    · refine ⟨m0.receive s, List.mem_map_of_mem (List.mem_iff_getElem?.mpr ⟨j, ?_⟩), rfl⟩
      rw [List.getElem?_set, if_neg (fun e' => e e'.symm)]
      exact hj
  refine ⟨k.root, ?_, ?_, ?_, ?_⟩
  · intro j m hm
    rcases hget j m hm with ⟨rfl, rfl⟩ | ⟨hne, m0, h1, rfl⟩
    · exact k.mine
    · refine k.others j m0 hne ?_ h1 (h.nodes j m0 h1)
      intro e
      exact hne (h.names j i m0 n h1 hn e)
  · intro j1 j2 m1 m2 h1 h2 e
    obtain ⟨a1, ha1, e1⟩ := hcore j1 m1 h1
    obtain ⟨a2, ha2, e2⟩ := hcore j2 m2 h2
    rw [e1, e2] at e
    exact h.names j1 j2 a1 a2 ha1 ha2 e
  · intro f hf
    rcases k.fedsOf f hf with ⟨g, hg, e⟩ | ⟨g, hg, e⟩
    · obtain ⟨m0, hm0, g', hg', e'⟩ := h.fedsOf g hg
      obtain ⟨m, hm, hc⟩ := hback m0 hm0
      exact ⟨m, hm, g', by rw [hc]; exact hg', e'.trans e⟩
    · obtain ⟨m, hm, hc⟩ := hback n (List.mem_of_getElem? hn)
      exact ⟨m, hm, g, by rw [hc]; exact hg, e⟩
  · intro f hf
    rcases k.brksOf f hf with ⟨g, hg, e⟩ | e
    · obtain ⟨m0, hm0, e'⟩ := h.brksOf g hg
      obtain ⟨m, hm, hc⟩ := hback m0 hm0
      exact ⟨m, hm, by rw [hc]; exact e'.trans e⟩
    · obtain ⟨m, hm, hc⟩ := hback n (List.mem_of_getElem? hn)
      exact ⟨m, hm, by rw [hc]; exact e⟩

/-! ### Registrations -/

theorem RInv.ofBrks {b b' : Broker} (h : RInv b) (hc : b'.cfg = b.cfg) (hi : b'.id = b.id)
    (hs : b'.state = b.state) (hb : b'.brks = b.brks) (hf : (b'.feds.map (·.name)).Nodup) :
    RInv b' :=
  ⟨hc ▸ h.root, hi.trans h.ident, hs.trans h.pre, hb ▸ h.ent, hb ▸ h.loc, hb ▸ h.par, hb ▸ h.sts,
    hb ▸ h.its, hb ▸ h.nodup, hf⟩

theorem known_of_eq {b b' : Broker} (hb : b'.brks = b.brks) : ∀ x g, b.Known x g → b'.Known x g := by
  intro x g h; unfold Broker.Known; rw [hb]; exact h

theorem Quiet.nil (b : Broker) : Quiet b [] := fun _ h => nomatch h

theorem Quiet.append {b : Broker} {s t : Sent} (h : Quiet b s) (h' : Quiet b t) :
    Quiet b (s ++ t) := by
  intro x hx
  rcases List.mem_append.mp hx with hx | hx
  · exact h x hx
  · exact h' x hx

theorem Quiet.retract (b b' : Broker) : Quiet b' b.retract := by
  intro x hx
  rw [Broker.retract, List.mem_singleton] at hx
  subst hx
  exact ⟨rfl, fun c h => nomatch h⟩

theorem Quiet.fedAck {b' : Broker} {d : Dest} {src dest : Int} {x : String} {e : Option Refusal} :
    Quiet b' [(d, .fedAck src x dest e)] := by
  intro y hy
  rw [List.mem_singleton] at hy
  subst hy
  exact ⟨rfl, fun c _ => trivial⟩

theorem Quiet.ite {b' : Broker} {p : Prop} [Decidable p] {s t : Sent} (h : Quiet b' s)
    (h' : Quiet b' t) : Quiet b' (if p then s else t) := by
  split
  · exact h
  · exact h'

/-- a step of the root which leaves the table of children as it is -/
theorem RootOk.same {late : Nat → String → Prop} {y : Sys} (h : SInv late y) {i : Nat} {n : Node}
    (hn : y.nodes[i]? = some n) {up' : List Msg} (hu : List.Sublist up' n.up) {b' : Broker}
    {s : Sent} (hr : RInv b') (hb : b'.brks = y.root.brks) (hs : Quiet b' s)
    (hf : ∀ f ∈ b'.feds, (∃ g ∈ y.root.feds, g.name = f.name) ∨ ∃ g ∈ n.core.feds, g.name = f.name) :
    RootOk late y i n up' b' s := by
  have hk := known_of_eq hb
  refine ⟨hr, hk, ?_, ?_, hf, fun k hk => .inl ⟨k, hb ▸ hk, rfl⟩⟩
  · have hN := h.nodes i n hn
    refine hN.quiet hk (fun m hm => hu.subset hm) hs ?_ ?_
    · intro k hk1 hk2
      have := hN.tok k (hb ▸ hk1) hk2
      have h2 := hu.countP_le (p := Msg.isInit)
      unfold token at this
      omega
    · intro k hk1; exact hN.gone k (hb ▸ hk1)
  · intro j m _ _ hm hN
    refine hN.quiet (up' := m.up) hk (fun m hm => hm) hs ?_ ?_
    · intro k hk1 hk2
      exact hN.tok k (hb ▸ hk1) hk2
    · intro k hk1; exact hN.gone k (hb ▸ hk1)

theorem fedReg_cases {b : Broker} (hroot : b.cfg.isRoot = true) (src : Int) (x : String)
    (nc o r : Bool) (e c : Int) :
    ∃ b' s, b.fedReg src x nc o r false e c = (b', s) ∧ Quiet b' s ∧
      b'.cfg = b.cfg ∧ b'.id = b.id ∧ b'.state = b.state ∧ b'.brks = b.brks ∧
      b'.iterating = b.iterating ∧
      (b'.feds.map (·.name) = b.feds.map (·.name) ∨
        (x ∉ b.feds.map (·.name) ∧ b'.feds.map (·.name) = b.feds.map (·.name) ++ [x])) := by
  unfold Broker.fedReg
  split
  · exact ⟨_, _, rfl, Quiet.fedAck, rfl, rfl, rfl, rfl, rfl, .inl rfl⟩
  split
  · exact ⟨_, _, rfl, Quiet.fedAck, rfl, rfl, rfl, rfl, rfl, .inl rfl⟩
  split
  · exact ⟨_, _, rfl, Quiet.fedAck, rfl, rfl, rfl, rfl, rfl, .inl rfl⟩
  dsimp only
  split
  · rename_i f hf
    split
    · simp only [Broker.answerFed, hroot, Bool.true_eq_false, if_false]
      refine ⟨_, _, rfl, (Quiet.ite (Quiet.retract _ _) (Quiet.nil _)).append Quiet.fedAck,
        rfl, rfl, rfl, rfl, rfl, .inl ?_⟩
      rw [List.map_map]
      apply List.map_congr_left
      intro g _
      dsimp only [Function.comp]
      split <;> rfl
    · exact ⟨_, _, rfl, (Quiet.ite (Quiet.retract _ _) (Quiet.nil _)).append Quiet.fedAck,
        rfl, rfl, rfl, rfl, rfl, .inl rfl⟩
  · rename_i hf
    rw [if_neg (by simp)]
    simp only [Broker.answerFed, hroot, Bool.true_eq_false, if_false]
    refine ⟨_, _, rfl, (Quiet.ite (Quiet.retract _ _) (Quiet.nil _)).append Quiet.fedAck,
        rfl, rfl, rfl, rfl, rfl, .inr ⟨?_, ?_⟩⟩
    · intro hx
      obtain ⟨f, hf1, hf2⟩ := List.mem_map.mp hx
      have := List.find?_eq_none.mp hf f hf1
      exact this (decide_eq_true hf2)
    · rw [List.map_append]; rfl

theorem regFed_ok {late : Nat → String → Prop} {y : Sys} (h : SInv late y) {i : Nat} {n : Node}
    (hn : y.nodes[i]? = some n) {up' : List Msg} (hu : List.Sublist up' n.up) {src e c : Int}
    {x : String} {nc o r : Bool} (hx : ∃ f ∈ n.core.feds, f.name = x) :
    RootOk late y i n up' (y.root.fedReg src x nc o r false e c).1
      (y.root.fedReg src x nc o r false e c).2 := by
  obtain ⟨b', s, e1, hq, h1, h2, h3, h4, -, h5⟩ := fedReg_cases h.root.root src x nc o r e c
  rw [e1]
  refine RootOk.same h hn hu (h.root.ofBrks h1 h2 h3 h4 ?_) h4 hq ?_
  · rcases h5 with h5 | ⟨h6, h5⟩
    · rw [h5]; exact h.root.fnodup
    · rw [h5, List.nodup_append]
      refine ⟨h.root.fnodup, by simp, ?_⟩
      intro a ha c hc e
      rw [List.mem_singleton] at hc
      subst hc
      exact h6 (e ▸ ha)
  · intro f hf
    have : f.name ∈ b'.feds.map (·.name) := List.mem_map_of_mem hf
    rcases h5 with h5 | ⟨h6, h5⟩
    · rw [h5] at this
      left
      obtain ⟨g, hg, e⟩ := List.mem_map.mp this
      exact ⟨g, hg, e⟩
    · rw [h5] at this
      rcases List.mem_append.mp this with this | this
      · left
        obtain ⟨g, hg, e⟩ := List.mem_map.mp this
        exact ⟨g, hg, e⟩
      · right
        rw [List.mem_singleton] at this
        rw [this]; exact hx

theorem Quiet.brkAckErr {b b' : Broker} {x : String} {r : Refusal} :
    Quiet b' (b.refuseBrk x r) := by
  intro y hy
  rw [Broker.refuseBrk, List.mem_singleton] at hy
  subst hy
  refine ⟨rfl, fun c hc => ⟨?_, fun e => nomatch e⟩⟩
  exact (of_decide_eq_true hc).symm

theorem regBrk_ok {late : Nat → String → Prop} {y : Sys} (h : SInv late y) {i : Nat} {n : Node}
    (hn : y.nodes[i]? = some n) {up' : List Msg} (hu : List.Sublist up' n.up)
    {core obs : Bool} :
    RootOk late y i n up' (y.root.brkReg invalidId n.core.name core obs false false true).1
      (y.root.brkReg invalidId n.core.name core obs false false true).2 := by
  have same : ∀ s, Quiet y.root s → RootOk late y i n up' y.root s := fun s hs =>
    RootOk.same h hn hu h.root rfl hs (fun f hf => .inl ⟨f, hf, rfl⟩)
  have hpre : ∀ (p : Prop) [Decidable p] (b : Broker),
      Quiet b (if p then y.root.retract else []) := fun p _ b =>
    Quiet.ite (Quiet.retract _ _) (Quiet.nil _)
  unfold Broker.brkReg
  simp only [Bool.false_eq_true, if_false, Bool.true_eq_false]
  split
  · exact same _ Quiet.brkAckErr
  split
  · exact same _ Quiet.brkAckErr
  split
  · exact same _ Quiet.brkAckErr
  split
  · exact same _ ((hpre _ _).append Quiet.brkAckErr)
  rename_i hnew
  have hnew' : ∀ k ∈ y.root.brks, k.name ≠ n.core.name := by
    intro k hk e
    exact hnew (List.any_eq_true.mpr ⟨k, hk, decide_eq_true e⟩)
  have hv : (validId invalidId = false ∨ invalidId = parentId) := .inl (by decide)
  rw [if_neg (by rw [h.root.root]; simp), h.root.root]
  simp only [hv, decide_true, if_true, Bool.not_true]
  generalize hk : BrkInfo.mk n.core.name ((y.root.brks.length : Int) + brkShift) y.root.id
    .connected core false obs false = k
  have hkn : k.name = n.core.name := by rw [← hk]
  have hkg : k.gid = (y.root.brks.length : Int) + brkShift := by rw [← hk]
  have hkp : k.parent = y.root.id := by rw [← hk]
  have hkl : k.nonLocal = false := by rw [← hk]
  have hks : k.state = .connected := by rw [← hk]
  have hki : k.iterating = false := by rw [← hk]
  rw [← hkg]
  have hmem : ∀ g, g ∈ y.root.brks ++ [k] ↔ g ∈ y.root.brks ∨ g = k := by
    intro g; rw [List.mem_append, List.mem_singleton]
  have hknown : ∀ x g, y.root.Known x g → Broker.Known { y.root with brks := y.root.brks ++ [k] } x g := by
    rintro x g ⟨a, ha, e⟩
    exact ⟨a, List.mem_append_left _ ha, e⟩
  have hR : RInv { y.root with brks := y.root.brks ++ [k] } := by
    have hr := h.root
    have all : ∀ {P : BrkInfo → Prop}, P k → (∀ a ∈ y.root.brks, P a) →
        ∀ a ∈ y.root.brks ++ [k], P a := by
      intro P h1 h2 a ha
      rcases (hmem a).mp ha with ha | rfl
      · exact h2 a ha
      · exact h1
    refine ⟨hr.root, hr.ident, hr.pre, ?_, all hkl hr.loc, all (hkp.trans hr.ident) hr.par,
      all (.inl hks) hr.sts, all (fun e => by rw [hki] at e; cases e) hr.its, ?_, hr.fnodup⟩
    · intro j a ha
      rw [List.getElem?_append] at ha
      split at ha
      · exact hr.ent j a ha
      · rename_i hj
        rw [List.getElem?_singleton] at ha
        split at ha
        · rename_i e
          cases ha
          rw [hkg]; omega
        · cases ha
    · change ((y.root.brks ++ [k]).map (·.name)).Nodup
      rw [List.map_append, List.nodup_append]
      refine ⟨hr.nodup, by simp, ?_⟩
      intro a ha c hc e
      obtain ⟨g, hg, rfl⟩ := List.mem_map.mp ha
      rw [List.map_cons, List.map_nil, List.mem_singleton] at hc
      exact hnew' g hg (e.trans (hc.trans hkn))
  have hq : Quiet { y.root with brks := y.root.brks ++ [k] }
      ((if y.root.state.val < BState.operating.val ∧ y.root.ready = true then y.root.retract else []) ++
        [(Dest.child n.core.name, Msg.brkAck y.root.id n.core.name k.gid none)]) := by
    refine (hpre _ _).append ?_
    intro z hz
    rw [List.mem_singleton] at hz
    subst hz
    refine ⟨rfl, fun c hc => ?_⟩
    have hc' : c.name = n.core.name := of_decide_eq_true hc
    exact ⟨hc'.symm, fun _ => ⟨k, List.mem_append_right _ (List.mem_singleton.mpr rfl), hkn.trans hc'.symm, rfl⟩⟩
  have hN := h.nodes i n hn
  refine ⟨hR, hknown, ?_, ?_, fun f hf => .inl ⟨f, hf, rfl⟩, ?_⟩
  · refine hN.quiet hknown (fun m hm => hu.subset hm) hq ?_ ?_
    · intro a ha e
      rcases (hmem a).mp ha with ha | rfl
      · exact absurd e (hnew' a ha)
      · have h1 : up'.countP Msg.isInit = 0 := by
          rw [List.countP_eq_zero]
          intro m hm hi
          have := hN.ups m (hu.subset hm)
          cases m <;> simp only [Msg.isInit] at hi <;> try cases hi
          obtain ⟨g, hg, e', -⟩ := this
          exact hnew' g hg e'
        have h2 : n.down.countP Msg.isGrant = 0 := by
          rw [List.countP_eq_zero]
          intro m hm hi
          have := hN.downs m hm
          cases m <;> simp only [Msg.isGrant] at hi <;> try cases hi
          obtain ⟨-, -, -, g, a, ha, e', -⟩ := this
          exact hnew' a ha e'
        rw [h1, h2, hks]
        split <;> simp
    · intro a ha e hd
      rcases (hmem a).mp ha with ha | rfl
      · exact absurd e (hnew' a ha)
      · rw [hks] at hd; cases hd
  · intro j m _ hne hm hNm
    refine hNm.quiet (up' := m.up) hknown (fun m hm => hm) hq ?_ ?_
    · intro a ha e
      rcases (hmem a).mp ha with ha | rfl
      · exact hNm.tok a ha e
      · exact absurd (e.symm.trans hkn) hne
    · intro a ha e hd
      rcases (hmem a).mp ha with ha | rfl
      · exact hNm.gone a ha e hd
      · exact absurd (e.symm.trans hkn) hne
  · intro a ha
    rcases (hmem a).mp ha with ha | rfl
    · exact .inl ⟨a, ha, rfl⟩
    · exact .inr hkn.symm

theorem discFed_ok {late : Nat → String → Prop} {y : Sys} (h : SInv late y) {i : Nat} {n : Node}
    (hn : y.nodes[i]? = some n) {up' : List Msg} (hu : List.Sublist up' n.up) {src : Int} :
    RootOk late y i n up' (y.root.onDiscFed src).1 (y.root.onDiscFed src).2 := by
  unfold Broker.onDiscFed
  dsimp only
  generalize (y.root.feds.find? (fun f => decide (f.gid = src))).map (·.name) = hit
  have hnm : (y.root.feds.map (fun f => if some f.name = hit then { f with state := Conn.disconnected } else f)).map
      (·.name) = y.root.feds.map (·.name) := by
    rw [List.map_map]
    apply List.map_congr_left
    intro f _
    dsimp only [Function.comp]
    split <;> rfl
  refine RootOk.same h hn hu (h.root.ofBrks rfl rfl rfl rfl ?_) rfl ?_ ?_
  · dsimp only; rw [hnm]; exact h.root.fnodup
  · rw [if_neg (by rw [h.root.root]; simp)]
    refine Quiet.ite ?_ (Quiet.nil _)
    intro z hz
    unfold Broker.broadcast at hz
    obtain ⟨k, hk, rfl⟩ := List.mem_map.mp hz
    exact ⟨rfl, fun c _ => trivial⟩
  · intro f hf
    obtain ⟨g, hg, rfl⟩ := List.mem_map.mp hf
    refine .inl ⟨g, hg, ?_⟩
    split <;> rfl

end Verif.Init
