import Verif.Lemmas.InitRoot
/-! The start-up protocol: departures, requests and the start itself at the root, and whole runs -/
namespace Verif.Init

theorem NInv.widen {b : Broker} {late late' : String → Prop} {n : Node} (h : NInv b late n)
    (hl : ∀ x, late x → late' x) : NInv b late' n where
  dyn := h.dyn
  ident := h.ident
  nofeds := h.nofeds
  delayed := h.delayed
  st := h.st
  ups := h.ups
  downs := h.downs
  tok := h.tok
  gone := h.gone
  asked := fun e f hf => (h.asked e f hf).imp id (hl _)
  calls := fun f hf e => (h.calls f hf e).imp id (hl _)
  wants := fun w hw f hf e => (h.wants w hw f hf e).imp id (hl _)
  idle := h.idle
  wknown := h.wknown
  fnodup := h.fnodup
  uniq := fun x => (h.uniq x).imp id (hl _)
  fresh := fun w hw f hf e => (h.fresh w hw f hf e).imp id (hl _)

/-! ### Departures -/

/-- the table after entries with the id `id` may have been marked as gone -/
structure Marked (b b' : Broker) (id : Int) : Prop where
  inv : RInv b'
  cfg : b'.cfg = b.cfg
  known : ∀ x g, b.Known x g → b'.Known x g
  ent : ∀ k' ∈ b'.brks, ∃ k ∈ b.brks, k'.name = k.name ∧ k'.gid = k.gid ∧ k'.parent = k.parent ∧
    (k'.state = k.state ∨ (k'.state = .disconnected ∧ k.gid = id))
  feds : b'.feds.map (·.name) = b.feds.map (·.name)

theorem Marked.refl {b : Broker} (h : RInv b) (id : Int) : Marked b b id :=
  ⟨h, rfl, fun _ _ h => h, fun k hk => ⟨k, hk, rfl, rfl, rfl, .inl rfl⟩, rfl⟩

theorem Marked.trans {b b1 b2 : Broker} {id : Int} (h : Marked b b1 id) (h' : Marked b1 b2 id) :
    Marked b b2 id := by
  refine ⟨h'.inv, h'.cfg.trans h.cfg, fun x g k => h'.known x g (h.known x g k), ?_, h'.feds.trans h.feds⟩
  intro k2 hk2
  obtain ⟨k1, hk1, e1, e2, e3, e4⟩ := h'.ent k2 hk2
  obtain ⟨k, hk, f1, f2, f3, f4⟩ := h.ent k1 hk1
  refine ⟨k, hk, e1.trans f1, e2.trans f2, e3.trans f3, ?_⟩
  rcases e4 with e4 | ⟨e4, e5⟩
  · rw [e4]; exact f4
  · exact .inr ⟨e4, f2 ▸ e5⟩

theorem Marked.feds_eq {b b1 b2 : Broker} {id : Int} (h : Marked b b1 id) (hc : b2.cfg = b1.cfg)
    (hi : b2.id = b1.id) (hs : b2.state = b1.state) (hb : b2.brks = b1.brks)
    (hf : b2.feds.map (·.name) = b1.feds.map (·.name)) : Marked b b2 id := by
  refine ⟨h.inv.ofBrks hc hi hs hb (hf ▸ h.inv.fnodup), hc.trans h.cfg, ?_, ?_, hf.trans h.feds⟩
  · intro x g hk; exact known_of_eq hb x g (h.known x g hk)
  · rw [hb]; exact h.ent

theorem mark_one {b : Broker} (h : RInv b) {i : Nat} {k : BrkInfo} (hi : b.brks[i]? = some k) :
    Marked b { b with brks := b.brks.modify i (fun k => { k with state := .disconnected }) } k.gid := by
  obtain ⟨h1, h2⟩ := h.modify hi (f := fun k => { k with state := .disconnected }) rfl rfl rfl rfl
    (.inr (.inr rfl)) (fun _ e => nomatch e)
  refine ⟨h1, rfl, ?_, ?_, rfl⟩
  · rintro x g ⟨a, ha, e1, e2⟩
    by_cases e : a.name = k.name
    · refine ⟨{ k with state := .disconnected }, (h2 _).mpr (.inl rfl), ?_, ?_⟩
      · exact e.symm.trans e1
      · have := h.name_inj ha (List.mem_of_getElem? hi) e
        rw [← this]; exact e2
    · exact ⟨a, (h2 _).mpr (.inr ⟨ha, e⟩), e1, e2⟩
  · intro k' hk'
    rcases (h2 k').mp hk' with rfl | ⟨hm, -⟩
    · exact ⟨k, List.mem_of_getElem? hi, rfl, rfl, rfl, .inr ⟨rfl, rfl⟩⟩
    · exact ⟨k', hm, rfl, rfl, rfl, .inl rfl⟩

theorem markGone_marked {fuel : Nat} {b : Broker} (h : RInv b) {id : Int} (hid : id ≠ rootId) :
    Marked b (Broker.markGone fuel b id) id := by
  cases fuel with
  | zero => exact Marked.refl h id
  | succ fuel =>
    unfold Broker.markGone
    dsimp only
    have key : ∀ (l : List Nat) (b1 : Broker), Marked b b1 id →
        Marked b (l.foldl (fun (b : Broker) i =>
          match b.brks[i]? with
          | none => b
          | some k =>
            if k.parent = id ∧ k.state ≠ .error then
              Broker.markGone fuel
                { (if k.gid = id ∧ k.state ≠ .error then
                    { b with brks := b.brks.modify i (fun k => { k with state := .disconnected }) }
                    else b) with
                  brks := (if k.gid = id ∧ k.state ≠ .error then
                    { b with brks := b.brks.modify i (fun k => { k with state := .disconnected }) }
                    else b).brks.modify i (fun k => { k with state := .disconnected }) } k.gid
            else (if k.gid = id ∧ k.state ≠ .error then
                { b with brks := b.brks.modify i (fun k => { k with state := .disconnected }) }
                else b)) b1) id := by
      intro l
      induction l with
      | nil => intro b1 h1; exact h1
      | cons i l ih =>
        intro b1 h1
        rw [List.foldl_cons]
        apply ih
        cases hi : b1.brks[i]? with
        | none => exact h1
        | some k =>
          dsimp only
          rw [if_neg]
          · split
            · rename_i hc
              have := mark_one h1.inv hi
              rw [hc.1] at this
              exact h1.trans this
            · exact h1
          · rintro ⟨e, -⟩
            rw [h1.inv.par k (List.mem_of_getElem? hi)] at e
            exact hid e.symm
    have := key (List.range b.brks.length) b (Marked.refl h id)
    refine Marked.feds_eq this rfl rfl rfl rfl ?_
    rw [List.map_map]
    apply List.map_congr_left
    intro f _
    dsimp only [Function.comp]
    split <;> rfl

/-- a departure -/
theorem gone_ok {late : Nat → String → Prop} {y : Sys} (h : SInv late y) {i : Nat} {n : Node}
    (hn : y.nodes[i]? = some n) {up' : List Msg} (hu : List.Sublist up' n.up) {src : Int}
    (hk : y.root.Known n.core.name src) (ho : n.core.out) {b' : Broker} {s : Sent}
    (hm : Marked y.root b' src) (hs : Quiet b' s) : RootOk late y i n up' b' s := by
  have tok : ∀ k' k : BrkInfo, (k'.state = k.state ∨ (k'.state = .disconnected ∧ k.gid = src)) →
      (if k'.state = .initRequested then 1 else 0) ≤ (if k.state = .initRequested then 1 else 0) := by
    rintro k' k (e | ⟨e, -⟩) <;> rw [e]
    · exact Nat.le_refl _
    · simp
  have only : ∀ k ∈ y.root.brks, k.gid = src → k.name = n.core.name := by
    intro k hk' e
    obtain ⟨a, ha, e1, e2⟩ := hk
    have g1 := h.root.get hk'
    have g2 := h.root.get ha
    rw [e] at g1
    rw [e2, g1] at g2
    rw [Option.some.inj g2]; exact e1
  refine ⟨hm.inv, hm.known, ?_, ?_, ?_, ?_⟩
  · have hN := h.nodes i n hn
    refine hN.quiet hm.known (fun m hm => hu.subset hm) hs ?_ ?_
    · intro k' hk1 hk2
      obtain ⟨k, hk, e1, -, -, e4⟩ := hm.ent k' hk1
      have := hN.tok k hk (e1.symm.trans hk2)
      have h2 := hu.countP_le (p := Msg.isInit)
      have h3 := tok k' k e4
      unfold token at this
      omega
    · intro _ _ _ _; exact ho
  · intro j m _ hne hm' hN
    refine hN.quiet (up' := m.up) hm.known (fun m hm => hm) hs ?_ ?_
    · intro k' hk1 hk2
      obtain ⟨k, hk, e1, -, -, e4⟩ := hm.ent k' hk1
      have := hN.tok k hk (e1.symm.trans hk2)
      have h3 := tok k' k e4
      unfold token at this
      omega
    · intro k' hk1 hk2 hk3
      obtain ⟨k, hk, e1, -, -, e4⟩ := hm.ent k' hk1
      rcases e4 with e4 | ⟨-, e5⟩
      · exact hN.gone k hk (e1.symm.trans hk2) (e4.symm.trans hk3)
      · exact absurd ((hk2.symm.trans e1).trans (only k hk e5)) hne
  · intro f hf
    have : f.name ∈ b'.feds.map (·.name) := List.mem_map_of_mem hf
    rw [hm.feds] at this
    obtain ⟨g, hg, e⟩ := List.mem_map.mp this
    exact .inl ⟨g, hg, e⟩
  · intro k' hk'
    obtain ⟨k, hk, e1, -⟩ := hm.ent k' hk'
    exact .inl ⟨k, hk, e1.symm⟩

theorem Quiet.discAcks {b b' : Broker} {l : List BrkInfo} :
    Quiet b' (l.map (fun g => (Dest.child g.name, Msg.discAck g.gid))) := by
  intro z hz
  obtain ⟨k, -, rfl⟩ := List.mem_map.mp hz
  exact ⟨rfl, fun c _ => trivial⟩

theorem Quiet.bcast {b b' : Broker} {m : Int → Msg} (hm : ∀ g, (m g).isGrant = false)
    (hd : ∀ g c, DownOk b' c (m g)) : Quiet b' (b.broadcast m) := by
  intro z hz
  unfold Broker.broadcast at hz
  obtain ⟨k, -, rfl⟩ := List.mem_map.mp hz
  exact ⟨hm _, fun c _ => hd _ c⟩

theorem disc_ok {late : Nat → String → Prop} {y : Sys} (h : SInv late y) {i : Nat} {n : Node}
    (hn : y.nodes[i]? = some n) {up' : List Msg} (hu : List.Sublist up' n.up) {src : Int}
    (hk : y.root.Known n.core.name src) (ho : n.core.out) :
    RootOk late y i n up' (y.root.onDisconnect src).1 (y.root.onDisconnect src).2 := by
  obtain ⟨k, hk1, hk2, rfl⟩ := hk
  have hget : y.root.get k.gid = some k := h.root.get hk1
  have hne : k.gid ≠ rootId := by
    obtain ⟨j, hj⟩ := List.mem_iff_getElem?.mp hk1
    have := h.root.ent j k hj
    rw [this]
    unfold brkShift rootId
    omega
  have hroot : ¬(y.root.cfg.isRoot = false) := by rw [h.root.root]; simp
  have hM := markGone_marked (fuel := y.root.brks.length + 1) h.root hne
  have hq1 : Quiet (Broker.markGone (y.root.brks.length + 1) y.root k.gid)
      (y.root.dropBrk k).2 := by
    unfold Broker.dropBrk
    dsimp only
    exact Quiet.ite (Quiet.bcast (fun _ => rfl) (fun _ _ => trivial)) (Quiet.nil _)
  have he : (y.root.dropBrk k).1 = Broker.markGone (y.root.brks.length + 1) y.root k.gid := rfl
  have hqa : ∀ b', Quiet b' (if k.nonLocal = false ∧ y.root.cfg.globalDisconnect = false then
          [(Dest.child k.name, Msg.discAck k.gid)] else []) := fun b' =>
    Quiet.ite (by intro z hz; rw [List.mem_singleton] at hz; subst hz; exact ⟨rfl, fun _ _ => trivial⟩)
      (Quiet.nil _)
  unfold Broker.onDisconnect
  rw [if_neg (fun hc => hroot hc.1), hget]
  dsimp only
  rw [he]
  rw [if_neg hroot]
  split
  · split
    · exact gone_ok h hn hu ⟨k, hk1, hk2, rfl⟩ ho hM (hq1.append (Quiet.discAcks (b := y.root)))
    · exact gone_ok h hn hu ⟨k, hk1, hk2, rfl⟩ ho hM (hq1.append (hqa _))
  · refine gone_ok h hn hu ⟨k, hk1, hk2, rfl⟩ ho hM ((hq1.append (hqa _)).append ?_)
    rw [if_neg (fun hc => hroot hc.1)]
    exact Quiet.nil _

/-! ### Requests -/

/-- the bookkeeping of a request at the root, before anything is granted -/
def Broker.noted (b : Broker) (src : Int) (iter : Bool) : Broker :=
  let b1 := b.upd src (fun k => if k.state = .connected then { k with state := .initRequested } else k)
  if iter then { b1.upd src (fun k => { k with iterating := true }) with iterating := true } else b1

theorem noted_spec {b : Broker} (h : RInv b) {k : BrkInfo} (hk : k ∈ b.brks) (iter : Bool) :
    RInv (b.noted k.gid iter) ∧
    ∃ k2 : BrkInfo, k2.name = k.name ∧ k2.gid = k.gid ∧
      k2.state = (if k.state = .connected then .initRequested else k.state) ∧
      (∀ a, a ∈ (b.noted k.gid iter).brks ↔ a = k2 ∨ (a ∈ b.brks ∧ a.name ≠ k.name)) ∧
      (b.noted k.gid iter).feds = b.feds ∧ (b.noted k.gid iter).cfg = b.cfg ∧
      (b.noted k.gid iter).unmatched = b.unmatched := by
  obtain ⟨i, hi, e⟩ := h.upd_eq hk
    (fun k => if k.state = .connected then { k with state := .initRequested } else k)
  have hs := h.sts k hk
  have hit := h.its k hk
  have m1 := h.modify hi (f := fun k => if k.state = .connected then { k with state := .initRequested } else k)
    (by split <;> rfl) (by split <;> rfl) (by split <;> rfl)
    (by split <;> rfl)
    (by
      split
      · exact .inr (.inl rfl)
      · exact hs)
    (by
      split
      · intro _ e; cases e
      · intro e; exact hit e)
  obtain ⟨hr1, hm1⟩ := m1
  generalize hk1 : (if k.state = .connected then { k with state := .initRequested } else k) = k1 at hm1
  have n1 : k1.name = k.name := by rw [← hk1]; split <;> rfl
  have g1 : k1.gid = k.gid := by rw [← hk1]; split <;> rfl
  have s1 : k1.state = (if k.state = .connected then .initRequested else k.state) := by
    rw [← hk1]; split <;> rfl
  have s1' : k1.state ≠ .connected := by
    rw [s1]; split
    · intro e; cases e
    · assumption
  unfold Broker.noted
  dsimp only
  rw [e]
  cases iter with
  | false =>
    rw [if_neg (by simp)]
    exact ⟨hr1, k1, n1, g1, s1, hm1, rfl, rfl, rfl⟩
  | true =>
    rw [if_pos rfl]
    have hk1m : k1 ∈ b.brks.modify i
        (fun k => if k.state = .connected then { k with state := .initRequested } else k) :=
      (hm1 k1).mpr (.inl rfl)
    obtain ⟨j, hj, e2⟩ := RInv.upd_eq hr1 hk1m (fun k => { k with iterating := true })
    rw [g1] at e2
    rw [e2]
    obtain ⟨hr2, hm2⟩ := RInv.modify hr1 hj (f := fun k => { k with iterating := true }) rfl rfl rfl rfl
      (hr1.sts k1 hk1m) (fun _ => s1')
    refine ⟨⟨hr2.root, hr2.ident, hr2.pre, hr2.ent, hr2.loc, hr2.par, hr2.sts, hr2.its, hr2.nodup, hr2.fnodup⟩,
      { k1 with iterating := true }, n1, g1, s1, ?_, rfl, rfl, rfl⟩
    intro a
    refine (hm2 a).trans ?_
    constructor
    · rintro (rfl | ⟨ha, hne⟩)
      · exact .inl rfl
      · rcases (hm1 a).mp ha with rfl | ⟨ha, -⟩
        · exact absurd rfl hne
        · exact .inr ⟨ha, n1 ▸ hne⟩
    · rintro (rfl | ⟨ha, hne⟩)
      · exact .inl rfl
      · exact .inr ⟨(hm1 a).mpr (.inr ⟨ha, hne⟩), n1 ▸ hne⟩

theorem noted_ok {late : Nat → String → Prop} {y : Sys} (h : SInv late y) {i : Nat} {n : Node}
    (hn : y.nodes[i]? = some n) {j : Nat} {src : Int} {iter : Bool}
    (hj : n.up[j]? = some (.init src iter)) (hk : y.root.Known n.core.name src) :
    RootOk late y i n (n.up.eraseIdx j) (y.root.noted src iter) [] := by
  obtain ⟨k, hk1, hk2, rfl⟩ := hk
  obtain ⟨hr, k2, e1, e2, e3, hm, hf, -, -⟩ := noted_spec h.root hk1 iter
  have hcnt := countP_eraseIdx Msg.isInit hj
  have hknown : ∀ x g, y.root.Known x g → (y.root.noted k.gid iter).Known x g := by
    rintro x g ⟨a, ha, f1, f2⟩
    by_cases e : a.name = k.name
    · have := h.root.name_inj ha hk1 e
      subst this
      exact ⟨k2, (hm _).mpr (.inl rfl), e1.trans f1, e2.trans f2⟩
    · exact ⟨a, (hm _).mpr (.inr ⟨ha, e⟩), f1, f2⟩
  refine ⟨hr, hknown, ?_, ?_, ?_, ?_⟩
  · have hN := h.nodes i n hn
    refine hN.quiet hknown (fun m hm => mem_eraseIdx hm) (Quiet.nil _) ?_ ?_
    · intro a ha hna
      rcases (hm a).mp ha with rfl | ⟨ha, hne⟩
      · have := hN.tok k hk1 hk2
        unfold token at this
        simp only [Msg.isInit, if_true] at hcnt
        rw [e3]
        by_cases hc : k.state = .connected
        · rw [if_pos hc]
          rw [hc] at this
          have e0 : (if Conn.connected = Conn.initRequested then 1 else 0) = 0 := by decide
          rw [e0] at this
          simp only [if_true]
          omega
        · rw [if_neg hc]
          omega
      · exact absurd (hna.trans hk2.symm) hne
    · intro a ha hna hd
      rcases (hm a).mp ha with rfl | ⟨ha, hne⟩
      · rw [e3] at hd
        split at hd
        · cases hd
        · exact hN.gone k hk1 hk2 hd
      · exact absurd (hna.trans hk2.symm) hne
  · intro j m _ hne hm' hN
    have old : ∀ a ∈ (y.root.noted k.gid iter).brks, a.name = m.core.name → a ∈ y.root.brks := by
      intro a ha e
      rcases (hm a).mp ha with rfl | ⟨ha, -⟩
      · exact absurd ((e.symm.trans e1).trans hk2) hne
      · exact ha
    refine hN.quiet (up' := m.up) hknown (fun m hm => hm) (Quiet.nil _) ?_ ?_
    · intro a ha e; exact hN.tok a (old a ha e) e
    · intro a ha e; exact hN.gone a (old a ha e) e
  · rw [hf]; exact fun f hf => .inl ⟨f, hf, rfl⟩
  · intro a ha
    rcases (hm a).mp ha with rfl | ⟨ha, -⟩
    · exact .inl ⟨k, hk1, e1.symm⟩
    · exact .inl ⟨a, ha, rfl⟩

theorem onInit_eq {b : Broker} (h : RInv b) {k : BrkInfo} (hk : k ∈ b.brks) (iter : Bool) :
    b.onInit k.gid iter =
      if (b.noted k.gid iter).ready = true then
        if (b.noted k.gid iter).iterating = true then (b.noted k.gid iter).iterate
        else (b.noted k.gid iter).start
      else (b.noted k.gid iter, []) := by
  obtain ⟨hr, -⟩ := noted_spec h hk iter
  have hroot := hr.root
  obtain ⟨i, hi, e⟩ := h.upd_eq hk
    (fun k => if k.state = .connected then { k with state := .initRequested } else k)
  unfold Broker.onInit
  rw [h.get hk]
  dsimp only
  rw [if_neg]
  · change (if (b.noted k.gid iter).ready = true then
        if (b.noted k.gid iter).cfg.isRoot = true then
          if (b.noted k.gid iter).iterating = true then (b.noted k.gid iter).iterate
          else (b.noted k.gid iter).start
        else _
      else (b.noted k.gid iter, [])) = _
    rw [if_pos hroot]
  · rw [e]
    rintro ⟨-, hc⟩
    dsimp only at hc
    rw [h.pre] at hc
    revert hc
    decide

theorem count_name {l : List BrkInfo} (h : (l.map (·.name)).Nodup) (p : BrkInfo → Bool) (x : String) :
    (l.filter (fun k => p k && decide (k.name = x))).length ≤ 1 := by
  induction l with
  | nil => simp
  | cons a l ih =>
    rw [List.map_cons, List.nodup_cons] at h
    rw [List.filter_cons]
    split
    · rename_i hc
      have : l.filter (fun k => p k && decide (k.name = x)) = [] := by
        rw [List.filter_eq_nil_iff]
        intro c hcm hcp
        simp only [Bool.and_eq_true, decide_eq_true_eq] at hc hcp
        exact h.1 (by rw [hc.2, ← hcp.2]; exact List.mem_map_of_mem hcm)
      rw [this]; simp
    · exact ih h.2

/-- one round of iteration -/
theorem iterate_ok {late : Nat → String → Prop} {y : Sys} (h : SInv late y) :
    SInv late { root := y.root.iterate.1, nodes := y.nodes.map (·.receive y.root.iterate.2) } := by
  unfold Broker.iterate
  generalize hgo : (fun k : BrkInfo =>
    !k.nonLocal && decide (k.state.val < Conn.disconnected.val) && k.iterating) = go
  dsimp only
  have hr := h.root
  have hgo1 : ∀ k ∈ y.root.brks, go k = true → k.state = .initRequested := by
    intro k hk hg
    rw [← hgo] at hg
    simp only [Bool.and_eq_true, decide_eq_true_eq] at hg
    rcases hr.sts k hk with e | e | e
    · exact absurd e (hr.its k hk hg.2)
    · exact e
    · exact absurd hg.1.2 (by rw [e]; decide)
  generalize hB : Broker.mk y.root.cfg y.root.id y.root.higher (y.root.state.set .connected) y.root.feds
    (y.root.brks.map (fun k => if go k = true then { k with iterating := false, state := .connected } else k))
    false y.root.delayed y.root.unmatched = b'
  have hbrks : b'.brks =
      y.root.brks.map (fun k => if go k = true then { k with iterating := false, state := .connected } else k) := by
    rw [← hB]
  have hst : y.root.state.set .connected = .connected := by rw [hr.pre]; decide
  have hmem : ∀ a ∈ b'.brks, ∃ k ∈ y.root.brks, a.name = k.name ∧ a.gid = k.gid ∧
      (a.state = if go k = true then .connected else k.state) := by
    rw [hbrks]
    intro a ha
    obtain ⟨k, hk, rfl⟩ := List.mem_map.mp ha
    refine ⟨k, hk, ?_⟩
    split <;> exact ⟨rfl, rfl, rfl⟩
  have hknown : ∀ x g, y.root.Known x g → b'.Known x g := by
    rintro x g ⟨k, hk, e1, e2⟩
    unfold Broker.Known
    rw [hbrks]
    refine ⟨_, List.mem_map_of_mem hk, ?_⟩
    split <;> exact ⟨e1, e2⟩
  have hnames : b'.brks.map (·.name) = y.root.brks.map (·.name) := by
    rw [hbrks, List.map_map]
    apply List.map_congr_left
    intro k _
    dsimp only [Function.comp]
    split <;> rfl
  have all : ∀ {P : BrkInfo → Prop}, (∀ k ∈ y.root.brks,
      P (if go k = true then { k with iterating := false, state := .connected } else k)) →
      ∀ a ∈ b'.brks, P a := by
    intro P hP a ha
    rw [hbrks] at ha
    obtain ⟨k, hk, rfl⟩ := List.mem_map.mp ha
    exact hP k hk
  have hR : RInv b' := by
    refine ⟨?_, ?_, ?_, ?_, ?_, ?_, ?_, ?_, hnames ▸ hr.nodup, ?_⟩
    · rw [← hB]; exact hr.root
    · rw [← hB]; exact hr.ident
    · rw [← hB]; exact hst
    · intro j a ha
      rw [hbrks, List.getElem?_map] at ha
      cases hj : y.root.brks[j]? with
      | none => rw [hj] at ha; cases ha
      | some k =>
        rw [hj] at ha
        have := Option.some.inj ha
        subst this
        have := hr.ent j k hj
        dsimp only
        split <;> exact this
    · apply all; intro k hk; split <;> exact hr.loc k hk
    · apply all; intro k hk; split <;> exact hr.par k hk
    · apply all; intro k hk
      split
      · exact .inl rfl
      · exact hr.sts k hk
    · apply all; intro k hk
      split
      · intro e; cases e
      · exact hr.its k hk
    · rw [← hB]; exact hr.fnodup
  refine ⟨hR, ?_, ?_, ?_, ?_⟩
  · intro i m hm
    rw [List.getElem?_map] at hm
    cases hi : y.nodes[i]? with
    | none => rw [hi] at hm; cases hm
    | some n =>
      rw [hi] at hm
      have := Option.some.inj hm
      subst this
      have hN := h.nodes i n hi
      generalize hsent : ((y.root.brks.filter go).map
        (fun k => (Dest.child k.name, Msg.grant k.gid true false false))) = s
      -- the grants sent to this core
      have hcount : ((s.filter (fun x => x.1.reaches n.core)).map (·.2)).countP Msg.isGrant ≤
          (y.root.brks.filter (fun k => go k && decide (k.name = n.core.name))).length := by
        refine Nat.le_trans List.countP_le_length ?_
        rw [List.length_map, ← hsent, List.filter_map, List.length_map, List.filter_filter]
        apply Nat.le_of_eq
        congr 1
        apply List.filter_congr
        intro k _
        simp only [Function.comp, Dest.reaches]
        rw [Bool.and_comm]
        congr 1
        apply decide_eq_decide.mpr
        exact eq_comm
      have hle := count_name hr.nodup go n.core.name
      refine hN.root (up' := n.up) hknown (fun m hm => hm) ?_ ?_ ?_
      · intro m hm
        obtain ⟨x, hx, rfl⟩ := List.mem_map.mp hm
        obtain ⟨hx1, hx2⟩ := List.mem_filter.mp hx
        rw [← hsent] at hx1
        obtain ⟨k, hk, rfl⟩ := List.mem_map.mp hx1
        have hkn : n.core.name = k.name := of_decide_eq_true hx2
        exact ⟨rfl, rfl, rfl, k.gid, hknown _ _ ⟨k, (List.mem_filter.mp hk).1, hkn.symm, rfl⟩⟩
      · intro a ha e
        obtain ⟨k, hk, e1, -, e3⟩ := hmem a ha
        have ht := hN.tok k hk (e1.symm.trans e)
        unfold token at ht
        rw [e3]
        by_cases hg : go k = true
        · rw [if_pos hg]
          rw [hgo1 k hk hg, if_pos rfl] at ht
          have e0 : (if Conn.connected = Conn.initRequested then 1 else 0) = 0 := by decide
          rw [e0]
          omega
        · rw [if_neg hg]
          have : y.root.brks.filter (fun k => go k && decide (k.name = n.core.name)) = [] := by
            rw [List.filter_eq_nil_iff]
            intro c hc hcp
            simp only [Bool.and_eq_true, decide_eq_true_eq] at hcp
            have := hr.name_inj hc hk (hcp.2.trans (e.symm.trans e1))
            subst this
            exact hg hcp.1
          rw [this] at hcount
          simp only [List.length_nil] at hcount
          omega
      · intro a ha e hd
        obtain ⟨k, hk, e1, -, e3⟩ := hmem a ha
        rw [e3] at hd
        split at hd
        · cases hd
        · exact hN.gone k hk (e1.symm.trans e) hd
  · intro i j m1 m2 h1 h2 e
    rw [List.getElem?_map] at h1 h2
    cases hi : y.nodes[i]? with
    | none => rw [hi] at h1; cases h1
    | some n1 =>
      cases hj : y.nodes[j]? with
      | none => rw [hj] at h2; cases h2
      | some n2 =>
        rw [hi] at h1; rw [hj] at h2
        have e1 := Option.some.inj h1
        have e2 := Option.some.inj h2
        subst e1; subst e2
        exact h.names i j n1 n2 hi hj e
  · intro f hf
    rw [← hB] at hf
    obtain ⟨n, hn, g, hg, e⟩ := h.fedsOf f hf
    exact ⟨_, List.mem_map_of_mem hn, g, hg, e⟩
  · intro a ha
    obtain ⟨k, hk, e1, -⟩ := hmem a ha
    obtain ⟨n, hn, e⟩ := h.brksOf k hk
    exact ⟨_, List.mem_map_of_mem hn, e.trans e1.symm⟩

end Verif.Init
