import Verif.Lemmas.ShutdownInv
/-! The invariant is kept by every command, for C56. -/
namespace Verif.Down

variable {net : Net} {s : Sys}

def DoneAt (net : Net) (n : Node) (x : NSt) : Prop :=
  match net.kind n with
  | .fed => x.called = true
  | .core => x.phase ≠ .running
  | .broker => x.allLocal (net.kids n) = true

theorem done_at {n : Node} : Done net s n = DoneAt net n (s.node n) := rfl

/-- what a node may send -/
def GoodOut (net : Net) (s : Sys) (v : Node) (x : NSt) (b : Node) : Cmd → Prop
  | .bye => b ∈ net.kids v ∧ net.kind b = .fed ∧ (s.node b).called = true
  | .disc => v ∈ net.kids b ∧ DoneAt net v x
  | .tbye => v ∈ net.kids b ∨ (b ∈ net.kids v ∧ DoneAt net v x)
  | .ack => b ∈ net.kids v ∧ x.gone b = true
  | .note => v ∈ net.kids b
  | .spread => b ∈ net.kids v
  | .halt => False
  | .stop => b = v ∧ net.kind v ≠ .fed ∧ v < net.size ∧ DoneAt net v x

structure Fine (net : Net) (s : Sys) (v : Node) (o : Out) : Prop where
  mono : Mono (s.node v) o.1
  gone : ∀ k, o.1.gone k = true → (s.node v).gone k = true ∨ (k ∈ net.kids v ∧ Done net s k)
  acked : ∀ k, o.1.acked k = true → o.1.gone k = true
  core : net.kind v = .core → o.1.phase ≠ .running → ∀ k, k ∈ net.kids v → o.1.gone k = true
  broker : net.kind v = .broker → o.1.phase ≠ .running → o.1.allLocal (net.kids v) = true
  fed : net.kind v = .fed → o.1.phase ≠ .running → o.1.called = true
  outs : ∀ b c, (b, c) ∈ o.2 → GoodOut net s v o.1 b c

theorem kid_ne (h : net.Ok) {b v : Node} (hb : b ∈ net.kids v) : b ≠ v := by
  obtain ⟨_, h0, hp⟩ := mem_kids.1 hb
  intro e; subst e
  have := h.below b h0; omega

theorem InvA.take (h : net.Ok) (I : InvA net s) {u v : Node} {c : Cmd} {cs : List Cmd} (hl : s.link u v = c :: cs) {o : Out}
    (F : Fine net s v o) : InvA net (Down.after s u v cs o) := by
  have E : Ext s (Down.after s u v cs o) := Ext.upd (after_node ..) F.mono
  have hs : (Down.after s u v cs o).node v = o.1 := after_same ..
  have hd : DoneAt net v o.1 → Done net (Down.after s u v cs o) v := by
    intro x; rw [done_at, hs]; exact x
  refine I.after hl F.mono ⟨?_, ?_, ?_, ?_, ?_⟩ ?_
  · intro k hk
    rw [hs] at hk
    rcases F.gone k hk with a | ⟨a, b⟩
    · obtain ⟨a, b⟩ := (I.nodes v).gone k a
      exact ⟨a, E.done b⟩
    · exact ⟨a, E.done b⟩
  · intro k; rw [hs]; exact F.acked k
  · rw [hs]; exact F.core
  · intro hb; rw [hs]; intro hp; exact hd (by unfold DoneAt; rw [hb]; exact F.broker hb hp)
  · rw [hs]; exact F.fed
  · intro b c' hb
    have := F.outs b c' hb
    cases c' with
    | bye =>
      refine .inr ⟨this.1, this.2.1, ?_⟩
      rw [after_node, upd_ne _ _ (kid_ne h this.1)]; exact this.2.2
    | disc => exact ⟨this.1, hd this.2⟩
    | tbye => exact this.imp id (fun x => ⟨x.1, hd x.2⟩)
    | ack => exact ⟨this.1, by rw [hs]; exact this.2⟩
    | note => exact this
    | spread => exact this
    | halt => exact this
    | stop => exact ⟨this.1.symm, by rw [this.1]; exact this.2.1, by rw [this.1]; exact this.2.2.1, by rw [this.1]; exact hd this.2.2.2⟩

theorem Fine.same (I : InvA net s) {v : Node} {out : List (Node × Cmd)}
    (ho : ∀ b c, (b, c) ∈ out → GoodOut net s v (s.node v) b c) : Fine net s v (s.node v, out) :=
  ⟨Mono.refl _, fun k h => .inl h, (I.nodes v).acked, (I.nodes v).core,
   fun hb hp => by have := (I.nodes v).broker hb hp; unfold Done at this; rw [hb] at this; exact this,
   (I.nodes v).fed, ho⟩

theorem hush_state (x : NSt) (v : Node) : (x.hush net v).1 = { x with silent := (x.hush net v).1.silent } := by
  unfold NSt.hush; split <;> rfl

theorem hush_out (x : NSt) (v : Node) {b : Node} {c : Cmd} (h : (b, c) ∈ (x.hush net v).2) :
    c = .tbye ∧ ((b ∈ net.kids v ∧ x.dep b = true) ∨ (b = net.par v ∧ v ≠ 0 ∧ net.tied v = true)) := by
  unfold NSt.hush at h
  split at h
  · cases h
  · simp only [List.mem_append, List.mem_map, List.mem_filter] at h
    rcases h with ⟨k, hk, e⟩ | h
    · cases e; exact ⟨rfl, .inl hk⟩
    · split at h
      · rename_i hv
        rw [List.mem_singleton] at h
        cases h; exact ⟨rfl, .inr ⟨rfl, hv⟩⟩
      · cases h

/-- a member other than the root is below its parent -/
theorem kid_par {v : Node} (h0 : v ≠ 0) (hv : v < net.size) : v ∈ net.kids (net.par v) := mem_kids.2 ⟨hv, h0, rfl⟩

theorem kid_core (h : net.Ok) {k v : Node} (hk : k ∈ net.kids v) (hv : net.kind v = .core) : net.kind k = .fed := by
  obtain ⟨a, b, c⟩ := mem_kids.1 hk
  exact (h.fed k b a).2 (by rw [c]; exact hv)
theorem kid_broker (h : net.Ok) {k v : Node} (hk : k ∈ net.kids v) (hv : net.kind v = .broker) : net.kind k ≠ .fed := by
  obtain ⟨a, b, c⟩ := mem_kids.1 hk
  intro e
  have := (h.fed k b a).1 e
  rw [c, hv] at this; cases this
theorem kid_fed (h : net.Ok) {k v : Node} (hk : k ∈ net.kids v) (hv : net.kind v = .fed) : False := by
  obtain ⟨a, b, c⟩ := mem_kids.1 hk
  exact h.leaf k b a (by rw [c]; exact hv)

/-- who takes part -/
theorem good_member (h : net.Ok) {u v : Node} {c : Cmd} (g : Good net s u v c) : v < net.size := by
  have par : ∀ {k n : Node}, k ∈ net.kids n → n < net.size := by
    intro k n hk
    obtain ⟨a, b, e⟩ := mem_kids.1 hk
    have := h.below k b; omega
  have kid : ∀ {k n : Node}, k ∈ net.kids n → k < net.size := fun hk => (mem_kids.1 hk).1
  cases c with
  | bye => exact g.elim (fun g => par g.1) (fun g => kid g.1)
  | disc => exact par g.1
  | tbye => exact g.elim (fun g => par g) (fun g => kid g.1)
  | ack => exact kid g.1
  | note => exact par g
  | spread => exact kid g
  | halt => exact absurd g id
  | stop => exact g.2.2.1

/-! ### Federates -/

theorem fine_fed (h : net.Ok) (I : InvA net s) {u v : Node} {c : Cmd} (g : Good net s u v c) (hv : net.kind v = .fed) :
    Fine net s v ((s.node v).fedCmd net v c) := by
  have h0 : v ≠ 0 := by intro e; subst e; rw [h.rootKind] at hv; cases hv
  have phase : ∀ p, p ≠ Phase.running → ((s.node v).phase = .stopped → p = .stopped) → (s.node v).called = true →
      Fine net s v ({ s.node v with phase := p }, []) := by
    intro p hp hq hc
    refine ⟨⟨id, fun _ => hp, hq, fun _ => id, fun _ => id⟩, fun k hk => .inl hk, (I.nodes v).acked, ?_, ?_, fun _ _ => hc, ?_⟩
    · intro e; rw [hv] at e; cases e
    · intro e; rw [hv] at e; cases e
    · intro b c hb; cases hb
  cases c with
  | bye =>
    have hc : (s.node v).called = true ∧ v < net.size := by
      rcases g with g | g
      · exact absurd hv (fun _ => kid_fed h g.1 hv)
      · exact ⟨g.2.2, (mem_kids.1 g.1).1⟩
    unfold NSt.fedCmd
    simp only
    split
    · rename_i hr
      refine ⟨⟨id, (fun e => absurd hr e), (fun e => by rw [hr] at e; cases e), fun _ => id, fun _ => id⟩,
        fun k hk => .inl hk, (I.nodes v).acked, ?_, ?_, fun _ _ => hc.1, ?_⟩
      · intro e; rw [hv] at e; cases e
      · intro e; rw [hv] at e; cases e
      · intro b c hb
        simp only [List.mem_append, List.mem_singleton] at hb
        rcases hb with hb | hb
        · split at hb
          · rw [List.mem_singleton] at hb; cases hb; exact .inl (kid_par h0 hc.2)
          · cases hb
        · cases hb
          exact ⟨kid_par h0 hc.2, by unfold DoneAt; rw [hv]; exact hc.1⟩
    · exact Fine.same I (fun b c hb => by cases hb)
  | halt => exact absurd g id
  | ack =>
    have := (I.nodes u).gone v g.2
    have hc : (s.node v).called = true := by have := this.2; unfold Done at this; rw [hv] at this; exact this
    exact phase .stopped (by decide) (fun _ => rfl) hc
  | stop => exact absurd hv g.2.1
  | disc => exact absurd hv (fun _ => kid_fed h g.1 hv)
  | tbye => exact Fine.same I (fun b c hb => by cases hb)
  | note => exact Fine.same I (fun b c hb => by cases hb)
  | spread => exact Fine.same I (fun b c hb => by cases hb)

/-! ### Cores -/

theorem all_gone_ext {x y : NSt} (h : ∀ k, x.gone k = true → y.gone k = true) {l : List Node} (a : x.all l = true) :
    y.all l = true := by
  rw [all_iff] at a ⊢; exact fun k hk => h k (a k hk)

/-- `check` and what it does -/
theorem fine_check {v : Node} (hv : net.kind v = .core) (h0 : v ≠ 0) (hm : v < net.size) {x : NSt}
    (F : Fine net s v (x, [])) : Fine net s v (x.check net v).1 := by
  unfold NSt.check
  split
  · rename_i hr
    split
    · rename_i ha
      simp only
      rw [hush_state]
      refine ⟨⟨F.mono.called, fun _ => by simp, fun e => ?_, F.mono.gone, F.mono.acked⟩, F.gone, F.acked, fun _ _ => all_iff.1 ha,
        ?_, ?_, ?_⟩
      · have := F.mono.stopped e; rw [hr] at this; cases this
      · intro e; rw [hv] at e; cases e
      · intro e; rw [hv] at e; cases e
      · intro b c hb
        simp only [List.mem_append, List.mem_singleton] at hb
        rcases hb with hb | hb
        · obtain ⟨rfl, hq⟩ := hush_out _ _ hb
          rcases hq with hq | hq
          · exact .inr ⟨hq.1, by unfold DoneAt; rw [hv]; simp⟩
          · exact .inl (by rw [hq.1]; exact kid_par h0 hm)
        · cases hb
          exact ⟨kid_par h0 hm, by unfold DoneAt; rw [hv]; simp⟩
    · exact F
  · exact F

theorem check_gone (x : NSt) (v : Node) : (x.check net v).1.1.gone = x.gone := by
  unfold NSt.check
  split
  · split
    · simp only; rw [hush_state]
    · rfl
  · rfl
theorem check_acked (x : NSt) (v : Node) : (x.check net v).1.1.acked = x.acked := by
  unfold NSt.check
  split
  · split
    · simp only; rw [hush_state]
    · rfl
  · rfl
theorem check_phase (x : NSt) (v : Node) : (x.phase ≠ .running → (x.check net v).1.1.phase = x.phase) ∧
    (x.all (net.kids v) = true → (x.check net v).1.1.phase ≠ .running) ∧
    ((x.check net v).2 = true → (x.check net v).1.1.phase ≠ .running) := by
  unfold NSt.check
  split
  · rename_i hr
    split
    · simp only; rw [hush_state]; exact ⟨fun h => absurd hr h, fun _ => by simp, fun _ => by simp⟩
    · rename_i ha
      exact ⟨fun h => absurd hr h, fun h => absurd h ha, fun h => by cases h⟩
  · rename_i hr; exact ⟨fun _ => rfl, fun _ => hr, fun _ => hr⟩

theorem Fine.more {v : Node} {x : NSt} {l l' : List (Node × Cmd)} (F : Fine net s v (x, l))
    (h : ∀ b c, (b, c) ∈ l' → GoodOut net s v x b c) : Fine net s v (x, l ++ l') :=
  ⟨F.mono, F.gone, F.acked, F.core, F.broker, F.fed, fun b c hb => by
    rcases List.mem_append.1 hb with hb | hb
    · exact F.outs b c hb
    · exact h b c hb⟩

theorem fine_core (h : net.Ok) (I : InvA net s) {u v : Node} {c : Cmd} (g : Good net s u v c) (hv : net.kind v = .core)
    (hm : v < net.size) (hs : (s.node v).phase ≠ .stopped) : Fine net s v ((s.node v).coreCmd net v u c) := by
  have h0 : v ≠ 0 := by intro e; subst e; rw [h.rootKind] at hv; cases hv
  have F0 : Fine net s v (s.node v, []) := Fine.same I (fun b c hb => by cases hb)
  have kn : ∀ {k : Node}, k ∈ net.kids v → k ≠ net.par v := by
    intro k hk e
    obtain ⟨_, b, c⟩ := mem_kids.1 hk
    have := h.below k b
    have := h.below v h0
    omega
  cases c with
  | bye =>
    refine Fine.same I (fun b c hb => ?_)
    rw [List.mem_singleton] at hb
    cases hb
    rcases g with g | g
    · exact g
    · exact absurd (hv ▸ g.2.1) (by decide)
  | disc =>
    obtain ⟨x1, hx1⟩ : ∃ x1, x1 = { s.node v with gone := upd (s.node v).gone u true } := ⟨_, rfl⟩
    have hg1 : ∀ k, (s.node v).gone k = true → x1.gone k = true := by
      intro k hk; rw [hx1]; simp only; unfold upd; split
      · rfl
      · exact hk
    have hu1 : x1.gone u = true := by rw [hx1]; exact upd_same ..
    have F1 : Fine net s v (x1, []) := by
      refine ⟨⟨by rw [hx1]; exact id, by rw [hx1]; exact id, by rw [hx1]; exact id, hg1, by rw [hx1]; exact fun _ => id⟩, ?_, ?_, ?_, ?_, ?_, ?_⟩
      · intro k hk
        rw [hx1] at hk
        by_cases e : k = u
        · subst e; exact .inr ⟨g.1, g.2⟩
        · have hk : upd (s.node v).gone u true k = true := hk
          rw [upd_ne _ _ e] at hk; exact .inl hk
      · intro k hk; rw [hx1] at hk; exact hg1 k ((I.nodes v).acked k hk)
      · intro e hp k hk; rw [hx1] at hp; exact hg1 k ((I.nodes v).core e hp k hk)
      · intro e; rw [hv] at e; cases e
      · intro e; rw [hv] at e; cases e
      · intro b c hb; cases hb
    unfold NSt.coreCmd
    simp only
    rw [← hx1]
    refine Fine.more (fine_check hv h0 hm F1) ?_
    intro b c hb
    split at hb
    · rcases List.mem_cons.1 hb with e | hb
      · cases e; exact kid_par h0 hm
      · split at hb
        · rw [List.mem_singleton] at hb; cases hb
          exact ⟨g.1, by rw [check_gone]; exact hu1⟩
        · cases hb
    · cases hb
  | tbye =>
    unfold NSt.coreCmd
    simp only
    split
    · rename_i e
      have hd : Done net s u ∧ v ∈ net.kids u := by
        rcases g with g | g
        · exact absurd e (kn g)
        · exact ⟨g.2, g.1⟩
      have hub : net.kind u = .broker := by
        cases hk : net.kind u with
        | broker => rfl
        | core => exact absurd (kid_core h hd.2 hk) (by rw [hv]; decide)
        | fed => exact absurd (kid_fed h hd.2 hk) id
      have hg : (s.node u).gone v = true := by
        have := hd.1; unfold Done at this; rw [hub] at this
        exact (allLocal_iff.1 this).2 v hd.2
      have hp : (s.node v).phase ≠ .running := by
        have := ((I.nodes u).gone v hg).2; unfold Done at this; rw [hv] at this; exact this
      have hall := (I.nodes v).core hv hp
      rw [hush_state]
      refine ⟨⟨id, fun _ => by simp, fun x => absurd x hs, fun _ => id, fun _ => id⟩, fun k hk => .inl hk, (I.nodes v).acked,
        fun _ _ => hall, ?_, ?_, ?_⟩
      · intro e; rw [hv] at e; cases e
      · intro e; rw [hv] at e; cases e
      · intro b c hb
        simp only [List.mem_append, List.mem_singleton, List.mem_map] at hb
        rcases hb with (hb | ⟨k, hk, hb⟩) | hb
        · obtain ⟨rfl, hq⟩ := hush_out _ _ hb
          rcases hq with hq | hq
          · exact .inr ⟨hq.1, by unfold DoneAt; rw [hv]; simp⟩
          · exact .inl (by rw [hq.1]; exact kid_par h0 hm)
        · cases hb; exact ⟨hk, hall b hk⟩
        · cases hb; exact ⟨rfl, by rw [hv]; decide, hm, by unfold DoneAt; rw [hv]; simp⟩
    · exact fine_check hv h0 hm F0
  | ack =>
    unfold NSt.coreCmd
    simp only
    split
    · have hp : (s.node v).phase ≠ .running := by
        have := ((I.nodes u).gone v g.2).2; unfold Done at this; rw [hv] at this; exact this
      refine Fine.same I (fun b c hb => ?_)
      simp only [List.mem_append, List.mem_singleton, List.mem_map] at hb
      rcases hb with ⟨k, hk, hb⟩ | hb
      · cases hb; exact ⟨hk, (I.nodes v).core hv hp b hk⟩
      · cases hb; exact ⟨rfl, by rw [hv]; decide, hm, by unfold DoneAt; rw [hv]; exact hp⟩
    · exact F0
  | spread => exact fine_check hv h0 hm F0
  | halt => exact absurd g id
  | stop =>
    have hp : (s.node v).phase ≠ .running := by have := g.2.2.2; unfold Done at this; rw [hv] at this; exact this
    unfold NSt.coreCmd
    simp only
    rw [if_neg hp]
    refine ⟨⟨id, fun _ => by simp, fun _ => rfl, fun _ => id, fun _ => id⟩, fun k hk => .inl hk, (I.nodes v).acked,
      fun _ _ => (I.nodes v).core hv hp, ?_, ?_, fun b c hb => by cases hb⟩
    · intro e; rw [hv] at e; cases e
    · intro e; rw [hv] at e; cases e
  | note => exact F0

/-! ### Brokers -/

theorem drop_state (x : NSt) (v u : Node) : (x.drop net v u).1 = { x with gone := upd x.gone u true } := rfl

theorem drop_out {x : NSt} {v u b : Node} {c : Cmd} (h : (b, c) ∈ (x.drop net v u).2) : c = .spread ∧ b ∈ net.kids v := by
  unfold NSt.drop at h
  simp only at h
  split at h
  · unfold NSt.broadcast at h
    rw [List.mem_map] at h
    obtain ⟨k, hk, e⟩ := h
    cases e
    exact ⟨rfl, (List.mem_filter.1 hk).1⟩
  · cases h

theorem broadcast_out {x : NSt} {v b : Node} {c c0 : Cmd} (h : (b, c) ∈ x.broadcast net v c0) : c = c0 ∧ b ∈ net.kids v := by
  unfold NSt.broadcast at h
  rw [List.mem_map] at h
  obtain ⟨k, hk, e⟩ := h
  cases e
  exact ⟨rfl, (List.mem_filter.1 hk).1⟩

theorem confirm_out {x : NSt} {v b : Node} {c : Cmd} (h : (b, c) ∈ (x.confirm net v).2) : c = .ack ∧ b ∈ net.kids v := by
  unfold NSt.confirm at h
  simp only at h
  rw [List.mem_map] at h
  obtain ⟨k, hk, e⟩ := h
  cases e
  exact ⟨rfl, (List.mem_filter.1 hk).1⟩

theorem fine_broker (I : InvA net s) {u v : Node} {c : Cmd} (g : Good net s u v c) (hv : net.kind v = .broker)
    (hm : v < net.size) : Fine net s v ((s.node v).brokerCmd net v u c) := by
  have F0 : Fine net s v (s.node v, []) := Fine.same I (fun b c hb => by cases hb)
  have hd : ∀ x : NSt, DoneAt net v x ↔ x.allLocal (net.kids v) = true := by
    intro x; unfold DoneAt; rw [hv]
  have nc : ¬ net.kind v = .core := by rw [hv]; decide
  have nf : ¬ net.kind v = .fed := by rw [hv]; decide
  cases c with
  | bye => exact F0
  | disc =>
    obtain ⟨d, hdd⟩ : ∃ d, d = (s.node v).drop net v u := ⟨_, rfl⟩
    have hd1 : d.1 = { s.node v with gone := upd (s.node v).gone u true } := by rw [hdd]; rfl
    have hg1 : ∀ k, (s.node v).gone k = true → d.1.gone k = true := by
      intro k hk; rw [hd1]; simp only; unfold upd; split
      · rfl
      · exact hk
    have hu1 : d.1.gone u = true := by rw [hd1]; exact upd_same ..
    have hdo : ∀ b c, (b, c) ∈ d.2 → ∀ x, GoodOut net s v x b c := by
      intro b c hb x
      rw [hdd] at hb
      obtain ⟨rfl, hq⟩ := drop_out hb
      exact hq
    have gone1 : ∀ k, d.1.gone k = true → (s.node v).gone k = true ∨ (k ∈ net.kids v ∧ Done net s k) := by
      intro k hk
      rw [hd1] at hk
      by_cases e : k = u
      · subst e; exact .inr ⟨g.1, g.2⟩
      · have hk : upd (s.node v).gone u true k = true := hk
        rw [upd_ne _ _ e] at hk; exact .inl hk
    have acked1 : ∀ k, d.1.acked k = true → d.1.gone k = true := by
      intro k hk; rw [hd1] at hk; exact hg1 k ((I.nodes v).acked k hk)
    have ph1 : d.1.phase = (s.node v).phase := by rw [hd1]
    have ca1 : d.1.called = (s.node v).called := by rw [hd1]
    have br1 : d.1.phase ≠ .running → d.1.allLocal (net.kids v) = true := by
      intro hp
      rw [ph1] at hp
      have := (I.nodes v).broker hv hp
      rw [done_at, hd, allLocal_iff] at this
      exact allLocal_iff.2 ⟨this.1, fun k hk => hg1 k (this.2 k hk)⟩
    have ac1 : d.1.acked = (s.node v).acked := by rw [hd1]
    -- a state that differs from `d.1` only in who was confirmed
    have fin : ∀ (x : NSt) (out : List (Node × Cmd)), x.gone = d.1.gone → x.phase = d.1.phase → x.called = d.1.called →
        (∀ k, d.1.acked k = true → x.acked k = true) → (∀ k, x.acked k = true → d.1.gone k = true) →
        (∀ b c, (b, c) ∈ out → GoodOut net s v x b c) → Fine net s v (x, out) := by
      intro x out e1 e2 e3 e4 e5 e6
      refine ⟨⟨?_, ?_, ?_, ?_, ?_⟩, ?_, ?_, fun e => absurd e nc, ?_, fun e => absurd e nf, e6⟩
      · intro a; simp only [e3, ca1]; exact a
      · intro a; simp only [e2, ph1]; exact a
      · intro a; simp only [e2, ph1]; exact a
      · intro k a; simp only [e1]; exact hg1 k a
      · intro k a; exact e4 k (by rw [ac1]; exact a)
      · intro k a; exact gone1 k (by rw [← e1]; exact a)
      · intro k a; simp only [e1]; exact e5 k a
      · intro _ a
        have := br1 (by rw [← e2]; exact a)
        rw [allLocal_iff] at this ⊢
        simp only [e1]; exact this
    show Fine net s v ((s.node v).discBelow net v u)
    unfold NSt.discBelow
    simp only
    rw [← hdd]
    split
    · rename_i hall
      have hx : ∀ x : NSt, x.gone = d.1.gone → x.allLocal (net.kids v) = true := by
        intro x e; rw [allLocal_iff] at hall ⊢; rw [e]; exact hall
      have hho : ∀ b c, (b, c) ∈ (d.1.hush net v).2 → ∀ x : NSt, x.gone = d.1.gone → GoodOut net s v x b c := by
        intro b c hb x e
        obtain ⟨rfl, hq⟩ := hush_out _ _ hb
        rcases hq with hq | hq
        · exact .inr ⟨hq.1, (hd x).2 (hx x e)⟩
        · exact .inl (by rw [hq.1]; exact kid_par hq.2.1 hm)
      split
      · rename_i h0
        rw [hush_state]
        refine fin _ _ rfl rfl rfl (fun _ => id) acked1 ?_
        intro b c hb
        simp only [List.mem_append, List.mem_singleton] at hb
        rcases hb with (hb | hb) | hb
        · exact hdo b c hb _
        · exact hho b c hb _ rfl
        · cases hb; exact ⟨kid_par h0 hm, (hd _).2 (hx _ rfl)⟩
      · split
        · rw [hush_state]
          refine fin _ _ rfl rfl rfl ?_ ?_ ?_
          · intro k a; unfold NSt.confirm; simp only [a, Bool.true_or]
          · intro k a
            unfold NSt.confirm at a
            simp only [Bool.or_eq_true, List.contains_iff_mem] at a
            rcases a with a | a
            · exact acked1 k a
            · exact (allLocal_iff.1 hall).2 k a
          · intro b c hb
            simp only [List.mem_append, List.mem_singleton] at hb
            rcases hb with ((hb | hb) | hb) | hb
            · exact hdo b c hb _
            · exact hho b c hb _ rfl
            · obtain ⟨rfl, hq⟩ := confirm_out hb
              exact ⟨hq, (allLocal_iff.1 hall).2 b hq⟩
            · cases hb; exact ⟨rfl, nf, hm, (hd _).2 (hx _ rfl)⟩
        · rw [hush_state]
          refine fin _ _ rfl rfl rfl ?_ ?_ ?_
          · intro k a; simp only; unfold upd; split
            · rfl
            · exact a
          · intro k a
            simp only at a
            by_cases e : k = u
            · subst e; exact hu1
            · rw [upd_ne _ _ e] at a; exact acked1 k a
          · intro b c hb
            simp only [List.mem_append, List.mem_cons, List.not_mem_nil, or_false] at hb
            rcases hb with (hb | hb) | hb | hb
            · exact hdo b c hb _
            · exact hho b c hb _ rfl
            · cases hb; exact ⟨g.1, hu1⟩
            · cases hb; exact ⟨rfl, nf, hm, (hd _).2 (hx _ rfl)⟩
    · have hup : ∀ b c x, (b, c) ∈ (if (v ≠ 0 && !(s.node v).oper) = true then [(net.par v, Cmd.note)] else []) →
          GoodOut net s v x b c := by
        intro b c x hb
        split at hb
        · rename_i hc
          rw [List.mem_singleton] at hb; cases hb
          have h0 : v ≠ 0 := by intro e; simp [e] at hc
          exact kid_par h0 hm
        · cases hb
      split
      · refine fin _ _ rfl rfl rfl (fun _ => id) acked1 ?_
        intro b c hb
        rcases List.mem_append.1 hb with hb | hb
        · exact hdo b c hb _
        · exact hup b c _ (by simpa using hb)
      · refine fin _ _ rfl rfl rfl ?_ ?_ ?_
        · intro k a; simp only; unfold upd; split
          · rfl
          · exact a
        · intro k a
          simp only at a
          by_cases e : k = u
          · subst e; exact hu1
          · rw [upd_ne _ _ e] at a; exact acked1 k a
        · intro b c hb
          simp only [List.mem_append, List.mem_singleton] at hb
          rcases hb with (hb | hb) | hb
          · exact hdo b c hb _
          · cases hb; exact ⟨g.1, hu1⟩
          · exact hup b c _ (by simpa using hb)
  | tbye =>
    unfold NSt.brokerCmd
    simp only
    split
    · refine ⟨⟨id, id, id, fun _ => id, fun _ => id⟩, fun k hk => .inl hk, (I.nodes v).acked, fun e => absurd e nc, ?_,
        fun e => absurd e nf, fun b c hb => by cases hb⟩
      intro _ hp
      have := (I.nodes v).broker hv hp
      rw [done_at, hd] at this; exact this
    · exact F0
  | ack =>
    unfold NSt.brokerCmd
    simp only
    split
    · have hdv := ((I.nodes u).gone v g.2).2
      rw [done_at, hd] at hdv
      have hall := (allLocal_iff.1 hdv).2
      refine ⟨⟨id, id, id, fun _ => id, ?_⟩, fun k hk => .inl hk, ?_, fun e => absurd e nc, fun _ _ => hdv, fun e => absurd e nf, ?_⟩
      · intro k a; unfold NSt.confirm; simp only [a, Bool.true_or]
      · intro k a
        unfold NSt.confirm at a
        simp only [Bool.or_eq_true, List.contains_iff_mem] at a
        rcases a with a | a
        · exact (I.nodes v).acked k a
        · exact hall k a
      · intro b c hb
        simp only [List.mem_append, List.mem_singleton] at hb
        rcases hb with hb | hb
        · obtain ⟨rfl, hq⟩ := confirm_out hb
          exact ⟨hq, hall b hq⟩
        · cases hb; exact ⟨rfl, nf, hm, (hd _).2 hdv⟩
    · exact F0
  | note =>
    unfold NSt.brokerCmd
    simp only
    split
    · rename_i h0
      refine Fine.same I (fun b c hb => ?_)
      rw [List.mem_singleton] at hb; cases hb; exact kid_par h0 hm
    · refine Fine.same I (fun b c hb => ?_)
      split at hb
      · cases hb
      · obtain ⟨rfl, hq⟩ := broadcast_out hb; exact hq
  | spread =>
    refine Fine.same I (fun b c hb => ?_)
    obtain ⟨rfl, hq⟩ := broadcast_out hb; exact hq
  | halt => exact absurd g id
  | stop =>
    have hdv := g.2.2.2
    rw [done_at, hd] at hdv
    unfold NSt.brokerCmd
    simp only
    rw [if_pos hdv]
    exact ⟨⟨id, fun _ => by simp, fun _ => rfl, fun _ => id, fun _ => id⟩, fun k hk => .inl hk, (I.nodes v).acked, fun e => absurd e nc,
      fun _ _ => hdv, fun e => absurd e nf, fun b c hb => by cases hb⟩

end Verif.Down
