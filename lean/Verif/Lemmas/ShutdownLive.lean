import Verif.Lemmas.ShutdownEnd
/-! Nobody is forgotten: what is still to come for every node, for C56. -/
namespace Verif.Down

variable {net : Net} {s : Sys}

/-- `n` has said, or must have said, that it leaves -/
def LeftAt (net : Net) (n : Node) (x : NSt) : Prop :=
  match net.kind n with
  | .fed => x.phase ≠ .running
  | .core => x.phase ≠ .running
  | .broker => x.allLocal (net.kids n) = true

/-- the end of the main loop of `n` is certain -/
def Stopping (s : Sys) (n : Node) : Prop := Cmd.stop ∈ s.link n n ∨ (s.node n).phase = .stopped

structure InvB (net : Net) (s : Sys) : Prop where
  f0 : ∀ f, net.IsFed f → (Cmd.disc ∈ s.link f (net.par f) ∨ (s.node (net.par f)).gone f = true) → (s.node f).phase ≠ .running
  f1 : ∀ f, net.IsFed f → (s.node f).called = true → (s.node f).phase ≠ .running ∨ Cmd.bye ∈ s.link f (net.par f) ∨
    Cmd.bye ∈ s.link (net.par f) f
  d : ∀ n, n < net.size → n ≠ 0 → LeftAt net n (s.node n) → Cmd.disc ∈ s.link n (net.par n) ∨ (s.node (net.par n)).gone n = true
  c2 : ∀ n, net.kind n = .core → net.kids n ≠ [] → (s.node n).all (net.kids n) = true → (s.node n).phase ≠ .running
  c5 : ∀ n, net.kind n = .core → net.glob n = false → ∀ f, f ∈ net.kids n → (s.node n).gone f = true →
    Cmd.ack ∈ s.link n f ∨ (s.node f).phase = .stopped ∨ (s.node n).phase ≠ .running
  c7 : ∀ n, net.kind n = .core → Stopping s n → ∀ f, f ∈ net.kids n → Cmd.ack ∈ s.link n f ∨ (s.node f).phase = .stopped
  a : ∀ n, net.IsNode n → n ≠ 0 → (s.node (net.par n)).acked n = true → Cmd.ack ∈ s.link (net.par n) n ∨ Stopping s n
  b3 : ∀ n, net.kind n = .broker → Stopping s n → ∀ k, k ∈ net.kids n → (s.node n).acked k = true
  r1 : (s.node 0).allLocal (net.kids 0) = true → Stopping s 0
  r2 : ∀ n, net.kind n = .broker → net.glob n = false → ∀ k, k ∈ net.kids n → (s.node n).gone k = true →
    (s.node n).acked k = true ∨ (n ≠ 0 ∧ (s.node n).allLocal (net.kids n) = true)
  r3 : (s.node 0).allLocal (net.kids 0) = true → ∀ k, k ∈ net.kids 0 → (s.node 0).acked k = true

/-- what is on a link stays there unless it is taken -/
theorem after_keep {u v : Node} {c : Cmd} {cs : List Cmd} (hl : s.link u v = c :: cs) (o : Out) {a b : Node} {c' : Cmd}
    (h : c' ∈ s.link a b) : c' ∈ (after s u v cs o).link a b ∨ (a = u ∧ b = v ∧ c' = c) := by
  by_cases e : a = u ∧ b = v
  · obtain ⟨rfl, rfl⟩ := e
    rw [hl] at h
    rcases List.mem_cons.1 h with rfl | h
    · exact .inr ⟨rfl, rfl, rfl⟩
    · exact .inl (mem_after.2 (.inl (by rw [if_pos ⟨rfl, rfl⟩]; exact h)))
  · exact .inl (mem_after.2 (.inl (by rw [if_neg e]; exact h)))

theorem after_new {u v : Node} {c : Cmd} {cs : List Cmd} (hl : s.link u v = c :: cs) {o : Out} {a b : Node} {c' : Cmd}
    (h : c' ∈ (after s u v cs o).link a b) : c' ∈ s.link a b ∨ (a = v ∧ (b, c') ∈ o.2) := by
  rcases mem_after.1 h with h | h
  · by_cases e : a = u ∧ b = v
    · rw [if_pos e] at h
      rw [e.1, e.2, hl]; exact .inl (List.mem_cons_of_mem _ h)
    · rw [if_neg e] at h; exact .inl h
  · exact .inr h

theorem after_out {u v : Node} {cs : List Cmd} {o : Out} {b : Node} {c' : Cmd}
    (h : (b, c') ∈ o.2) : c' ∈ (after s u v cs o).link v b := mem_after.2 (.inr ⟨rfl, h⟩)

theorem left_mono {x y : NSt} (m : Mono x y) {n : Node} (h : LeftAt net n x) : LeftAt net n y := by
  unfold LeftAt at h ⊢
  cases hk : net.kind n <;> rw [hk] at h <;> simp only at h ⊢
  · rw [allLocal_iff] at h ⊢; exact ⟨h.1, fun k hm => m.gone k (h.2 k hm)⟩
  · exact m.phase h
  · exact m.phase h

theorem allLocal_mono {x y : NSt} (m : Mono x y) {l : List Node} (h : x.allLocal l = true) : y.allLocal l = true := by
  rw [allLocal_iff] at h ⊢; exact ⟨h.1, fun k hm => m.gone k (h.2 k hm)⟩

/-- a stopped node knows that all below have left -/
theorem stopped_gone (h : net.Ok) (I : InvA net s) {n k : Node} (hs : (s.node n).phase = .stopped) (hk : k ∈ net.kids n) :
    (s.node n).gone k = true := by
  have hp : (s.node n).phase ≠ .running := by rw [hs]; decide
  cases hn : net.kind n with
  | core => exact (I.nodes n).core hn hp k hk
  | broker =>
    have := (I.nodes n).broker hn hp
    unfold Done at this; rw [hn] at this
    exact (allLocal_iff.1 this).2 k hk
  | fed => exact absurd (kid_fed h hk hn) id

theorem InvB.onTake (h : net.Ok) (I : InvA net s) (B : InvB net s) (u v : Node) : InvB net (s.step net (.take u v)) := by
  cases hl : s.link u v with
  | nil => rw [take_nil hl]; exact B
  | cons c cs =>
  have I' := I.onTake h u v
  rw [take_cons hl] at I' ⊢
  have g : Good net s u v c := I.links u v c (by rw [hl]; exact List.mem_cons_self ..)
  have hin : c ∈ s.link u v := by rw [hl]; exact List.mem_cons_self ..
  have hm := good_member h g
  have hh : c ≠ .halt := by intro e; rw [e] at g; exact g
  obtain ⟨x, hx⟩ : ∃ x, x = s.node v := ⟨_, rfl⟩
  obtain ⟨o, ho⟩ : ∃ o, o = x.onCmd net v u c := ⟨_, rfl⟩
  rw [← hx, ← ho] at I' ⊢
  have F : Fine net s v o := by
    rw [ho, hx]
    unfold NSt.onCmd
    split
    · exact Fine.same I (fun b c hb => by cases hb)
    · rename_i hs
      cases hk : net.kind v with
      | fed => exact fine_fed h I g hk
      | core => exact fine_core h I g hk hm hs
      | broker => exact fine_broker I g hk hm
  have E : Ext s (after s u v cs o) := Ext.upd (after_node ..) F.mono
  have hv' : (after s u v cs o).node v = o.1 := after_same ..
  have hne : ∀ {n}, n ≠ v → (after s u v cs o).node n = s.node n := fun e => by rw [after_node, upd_ne _ _ e]
  have keep : ∀ {a b : Node} {c' : Cmd}, c' ∈ s.link a b → c' ∈ (after s u v cs o).link a b ∨ (a = u ∧ b = v ∧ c' = c) :=
    fun hc => after_keep hl o hc
  -- what the node does, according to its kind
  have oStop : x.phase = .stopped → o = (x, []) := by
    intro e; rw [ho]; unfold NSt.onCmd; rw [if_pos e]
  have oFed : x.phase ≠ .stopped → net.kind v = .fed → o = x.fedCmd net v c := by
    intro e e'; rw [ho]; unfold NSt.onCmd; rw [if_neg e, e']
  have oCore : x.phase ≠ .stopped → net.kind v = .core → o = x.coreCmd net v u c := by
    intro e e'; rw [ho]; unfold NSt.onCmd; rw [if_neg e, e']
  have oBrk : x.phase ≠ .stopped → net.kind v = .broker → o = x.brokerCmd net v u c := by
    intro e e'; rw [ho]; unfold NSt.onCmd; rw [if_neg e, e']
  have runs : ∀ {b : Node} {c' : Cmd}, (b, c') ∈ o.2 → x.phase ≠ .stopped := by
    intro b c' hb e; rw [oStop e] at hb; cases hb
  -- who is newly known to have left
  have hgone : ∀ k, o.1.gone k = true → x.gone k = true ∨ (k = u ∧ c = .disc ∧ x.phase ≠ .stopped) := by
    intro k hk
    by_cases e : x.phase = .stopped
    · rw [oStop e] at hk; exact .inl hk
    · by_cases hd : c = .disc
      · subst hd
        have : ∀ y : NSt, y.gone = upd x.gone u true → y.gone k = true → x.gone k = true ∨ (k = u ∧ Cmd.disc = .disc ∧ x.phase ≠ .stopped) := by
          intro y hy hk
          rw [hy] at hk
          by_cases ek : k = u
          · exact .inr ⟨ek, rfl, e⟩
          · rw [upd_ne _ _ ek] at hk; exact .inl hk
        cases hkd : net.kind v with
        | fed => exact absurd (kid_fed h g.1 hkd) id
        | core => rw [oCore e hkd] at hk; exact this _ core_disc.1 hk
        | broker => rw [oBrk e hkd] at hk; exact this _ broker_disc.1 hk
      · left
        cases hkd : net.kind v with
        | fed => rw [oFed e hkd, fed_frame.2.1] at hk; exact hk
        | core => rw [oCore e hkd, (core_frame hd hh).1] at hk; exact hk
        | broker => rw [oBrk e hkd, (broker_frame hd hh).1] at hk; exact hk
  -- CMD_DISCONNECT is noted
  have hdisc : c = .disc → o.1.gone u = true := by
    intro hd
    subst hd
    by_cases e : x.phase = .stopped
    · rw [oStop e, hx]; exact stopped_gone h I (by rw [← hx]; exact e) g.1
    · cases hkd : net.kind v with
      | fed => exact absurd (kid_fed h g.1 hkd) id
      | core => rw [oCore e hkd, core_disc.1]; exact upd_same ..
      | broker => rw [oBrk e hkd, broker_disc.1]; exact upd_same ..
  have hcalled : o.1.called = x.called := by
    by_cases e : x.phase = .stopped
    · rw [oStop e]
    · by_cases hd : c = .disc
      · subst hd
        cases hkd : net.kind v with
        | fed => exact absurd (kid_fed h g.1 hkd) id
        | core => rw [oCore e hkd, core_disc.2.2.1]
        | broker => rw [oBrk e hkd, broker_disc.2.2.1]
      · cases hkd : net.kind v with
        | fed => rw [oFed e hkd, fed_frame.1]
        | core => rw [oCore e hkd, (core_frame hd hh).2.2]
        | broker => rw [oBrk e hkd, (broker_frame hd hh).2.1]
  -- a core or broker stops only because of CMD_STOP
  have hstopped : net.kind v ≠ .fed → o.1.phase = .stopped → x.phase = .stopped ∨ c = .stop := by
    intro hf hp
    by_cases e : x.phase = .stopped
    · exact .inl e
    · right
      cases hkd : net.kind v with
      | fed => exact absurd hkd hf
      | core => rw [oCore e hkd] at hp; exact (core_stopped e hp).elim id (fun e => absurd e hh)
      | broker =>
        rw [oBrk e hkd] at hp
        by_cases hd : c = .disc
        · subst hd; rw [broker_disc.2.1] at hp; exact absurd hp e
        · by_cases hs : c = .stop
          · exact hs
          · rw [(broker_frame hd hh).2.2.2.2.2 hs] at hp; exact absurd hp e
  have hstop : net.kind v ≠ .fed → c = .stop → o.1.phase = .stopped := by
    intro hf hc
    subst hc
    by_cases e : x.phase = .stopped
    · rw [oStop e]; exact e
    · cases hkd : net.kind v with
      | fed => exact absurd hkd hf
      | core => rw [oCore e hkd]; exact core_stop
      | broker => rw [oBrk e hkd]; exact broker_stop
  have hstopK : ∀ {n}, Stopping s n → net.kind n ≠ .fed → Stopping (after s u v cs o) n := by
    rintro n (hs | hs) hf
    · rcases keep hs with hs | ⟨_, e, ec⟩
      · exact .inl hs
      · subst e; exact .inr (by rw [hv']; exact hstop hf ec.symm)
    · exact .inr ((E n).stopped hs)
  have hstopN : ∀ {n}, Stopping (after s u v cs o) n → net.kind n ≠ .fed →
      Stopping s n ∨ (n = v ∧ (v, Cmd.stop) ∈ o.2) := by
    rintro n (hs | hs) hf
    · rcases after_new hl hs with hs | ⟨e, hq⟩
      · exact .inl (.inl hs)
      · subst e; exact .inr ⟨rfl, hq⟩
    · by_cases e : n = v
      · subst e
        rw [hv'] at hs
        rcases hstopped hf hs with hs | hs
        · exact .inl (.inr (by rw [← hx]; exact hs))
        · subst hs
          have := g.1
          subst this
          exact .inl (.inl hin)
      · rw [hne e] at hs; exact .inl (.inr hs)
  have hacked : ∀ k, k ∈ net.kids v → net.kind v = .broker → o.1.acked k = true → x.acked k = true ∨ (k, Cmd.ack) ∈ o.2 := by
    intro k hk hkd ha
    by_cases e : x.phase = .stopped
    · rw [oStop e] at ha; exact .inl ha
    · rw [oBrk e hkd] at ha ⊢
      by_cases hd : c = .disc
      · subst hd; exact broker_disc.2.2.2.2.1 k hk ha
      · exact (broker_frame hd hh).2.2.2.1 k hk ha
  have hackK : ∀ {n f}, net.kind f = .fed → (Cmd.ack ∈ s.link n f ∨ (s.node f).phase = .stopped) →
      (Cmd.ack ∈ (after s u v cs o).link n f ∨ ((after s u v cs o).node f).phase = .stopped) := by
    rintro n f hf (ha | ha)
    · rcases keep ha with ha | ⟨_, e, ec⟩
      · exact .inl ha
      · subst e
        right
        rw [hv']
        by_cases e : x.phase = .stopped
        · rw [oStop e]; exact e
        · rw [oFed e hf, ← ec]; rfl
    · exact .inr ((E f).stopped ha)
  refine ⟨?_, ?_, ?_, ?_, ?_, ?_, ?_, ?_, ?_, ?_, ?_⟩
  -- f0
  · intro f hf hd
    rcases hd with hd | hd
    · rcases after_new hl hd with hd | ⟨e, hq⟩
      · exact (E f).phase (B.f0 f hf (.inl hd))
      · subst e
        rw [hv']
        have e := runs hq
        rw [oFed e hf.2] at hq ⊢
        exact fed_disc hq
    · by_cases e : net.par f = v
      · rw [e, hv'] at hd
        rcases hgone f hd with hd | ⟨e1, e2, _⟩
        · exact (E f).phase (B.f0 f hf (.inr (by rw [e, ← hx]; exact hd)))
        · subst e1 e2
          exact (E f).phase (B.f0 f hf (.inl (by rw [e]; exact hin)))
      · rw [hne e] at hd
        exact (E f).phase (B.f0 f hf (.inr hd))
  -- f1
  · intro f hf hc
    have hc : (s.node f).called = true := by
      by_cases e : f = v
      · subst e; rw [hv', hcalled, hx] at hc; exact hc
      · rw [hne e] at hc; exact hc
    have h0 : f ≠ 0 := by intro e; have := hf.2; rw [e, h.rootKind] at this; cases this
    have hpk := (h.fed f h0 hf.1).1 hf.2
    rcases B.f1 f hf hc with hb | hb | hb
    · exact .inl ((E f).phase hb)
    · rcases keep hb with hb | ⟨eu, ev, ec⟩
      · exact .inr (.inl hb)
      · by_cases e : x.phase = .stopped
        · left
          refine (E f).phase (B.f0 f hf (.inr ?_))
          refine stopped_gone h I ?_ (kid_par h0 hf.1)
          rw [ev, ← hx]; exact e
        · refine .inr (.inr ?_)
          have hk : net.kind v = .core := by rw [← ev]; exact hpk
          rw [ev]
          refine after_out ?_
          rw [oCore e hk, ← ec, eu]
          exact List.mem_singleton.2 rfl
    · rcases keep hb with hb | ⟨eu, ev, ec⟩
      · exact .inr (.inr hb)
      · subst ev
        left
        rw [hv']
        by_cases e : x.phase = .stopped
        · rw [oStop e, e]; decide
        · rw [oFed e hf.2, ← ec]; exact fed_bye.1
  -- d
  · intro n hn h0 hL
    by_cases hold : LeftAt net n (s.node n)
    · rcases B.d n hn h0 hold with hd | hd
      · rcases keep hd with hd | ⟨eu, ev, ec⟩
        · exact .inl hd
        · right
          rw [ev, hv', eu]; exact hdisc ec.symm
      · exact .inr ((E (net.par n)).gone n hd)
    · by_cases e : n = v
      · subst e
        rw [hv'] at hL
        have es : x.phase ≠ .stopped := by
          intro es; rw [oStop es, hx] at hL; exact hold hL
        rw [← hx] at hold
        cases hkd : net.kind n with
        | fed =>
          unfold LeftAt at hL hold; rw [hkd] at hL hold
          simp only at hL hold
          have hr : x.phase = .running := by simpa using hold
          rw [oFed es hkd] at hL
          rcases fed_phase hr hL with e | e | e | e
          · subst e
            left
            refine after_out ?_
            rw [oFed es hkd]; exact fed_bye.2 hr
          · exact absurd e hh
          · subst e
            right
            refine (E _).gone n ?_
            rw [(mem_kids.1 g.1).2.2]; exact g.2
          · subst e; exact absurd hkd g.2.1
        | core =>
          unfold LeftAt at hL hold; rw [hkd] at hL hold
          simp only at hL hold
          have hr : x.phase = .running := by simpa using hold
          rw [oCore es hkd] at hL
          rcases core_leave hr hL with e | e | e | e
          · left; refine after_out ?_; rw [oCore es hkd]; exact e
          · -- a goodbye from above comes only after the node has left
            exfalso
            obtain ⟨e1, e2⟩ := e
            subst e1
            have hk : n ∈ net.kids u := by rw [e2]; exact kid_par h0 hn
            have hd : Done net s u := by
              rcases g with g | g
              · exfalso
                have := h.below u (mem_kids.1 g).2.1
                rw [(mem_kids.1 g).2.2] at this
                have := h.below n h0
                omega
              · exact g.2
            have hub : net.kind u = .broker := by
              cases hku : net.kind u with
              | broker => rfl
              | core => exact absurd (kid_core h hk hku) (by rw [hkd]; decide)
              | fed => exact absurd (kid_fed h hk hku) id
            unfold Done at hd; rw [hub] at hd
            have := ((I.nodes u).gone n ((allLocal_iff.1 hd).2 n hk)).2
            unfold Done at this; rw [hkd] at this
            exact this (by rw [← hx]; exact hr)
          · exact absurd e hh
          · exfalso
            subst e
            have := g.2.2.2
            unfold Done at this; rw [hkd] at this
            exact this (by rw [← hx]; exact hr)
        | broker =>
          unfold LeftAt at hL hold; rw [hkd] at hL hold
          simp only at hL hold
          rw [oBrk es hkd] at hL
          left
          refine after_out ?_
          rw [oBrk es hkd]
          by_cases hd : c = .disc
          · subst hd; exact broker_disc.2.2.2.2.2.1 h0 hL
          · exfalso
            rw [allLocal_iff, (broker_frame hd hh).1, ← allLocal_iff] at hL
            exact hold hL
      · rw [hne e] at hL; exact absurd hL hold
  -- c2
  · intro n hn hk ha
    by_cases e : n = v
    · subst e
      rw [hv'] at ha ⊢
      by_cases es : x.phase = .stopped
      · rw [oStop es, es]; decide
      · by_cases hd : c = .disc
        · subst hd
          rw [oCore es hn] at ha ⊢
          exact core_disc.2.2.2.2.2.1 ha
        · have : x.all (net.kids n) = true := by
            rw [oCore es hn] at ha
            rw [all_iff, (core_frame hd hh).1, ← all_iff] at ha; exact ha
          refine F.mono.phase ?_
          refine B.c2 n hn hk ?_
          rw [← hx]; exact this
    · rw [hne e] at ha ⊢; exact B.c2 n hn hk ha
  -- c5
  · intro n hn hgl f hf hg
    have hff := kid_core h hf hn
    have old : (s.node n).gone f = true → Cmd.ack ∈ (after s u v cs o).link n f ∨ ((after s u v cs o).node f).phase = .stopped ∨
        ((after s u v cs o).node n).phase ≠ .running := by
      intro hg
      rcases B.c5 n hn hgl f hf hg with a | a | a
      · exact (hackK hff (.inl a)).elim .inl (fun a => .inr (.inl a))
      · exact .inr (.inl ((E f).stopped a))
      · exact .inr (.inr ((E n).phase a))
    by_cases e : n = v
    · subst e
      rw [hv'] at hg
      rcases hgone f hg with hg | ⟨e1, e2, e3⟩
      · exact old (by rw [← hx]; exact hg)
      · subst e1 e2
        have oc := oCore e3 hn
        rcases (core_disc (net := net) (x := x) (v := n) (u := f)).2.2.2.2.2.2.2.1 hgl with a | a
        · left; refine after_out ?_; rw [oc]; exact a
        · right; right; rw [hv', oc]; exact a
    · rw [hne e] at hg; exact old hg
  -- c7
  · intro n hn hs f hf
    have hff := kid_core h hf hn
    rcases hstopN hs (by rw [hn]; decide) with hs | ⟨e, hs⟩
    · exact hackK hff (B.c7 n hn hs f hf)
    · subst e
      have es := runs hs
      left
      refine after_out ?_
      rw [oCore es hn] at hs ⊢
      refine core_stop_out hh ?_ hs f hf
      intro e
      subst e
      have := g.2.2.2
      unfold Done at this; rw [hn] at this
      rw [hx]; exact this
  -- a
  · intro n hn h0 ha
    by_cases e : net.par n = v
    · rw [e, hv'] at ha
      have hk : n ∈ net.kids v := by rw [← e]; exact kid_par h0 hn.1
      have hvb : net.kind v = .broker := by
        cases hkv : net.kind v with
        | broker => rfl
        | core => exact absurd (kid_core h hk hkv) hn.2
        | fed => exact absurd (kid_fed h hk hkv) id
      rcases hacked n hk hvb ha with ha | ha
      · rcases B.a n hn h0 (by rw [e, ← hx]; exact ha) with a | a
        · rcases keep a with a | ⟨_, ev, _⟩
          · exact .inl a
          · exact absurd ev (kid_ne h hk)
        · exact .inr (hstopK a hn.2)
      · left; rw [e]; exact after_out ha
    · rw [hne e] at ha
      rcases B.a n hn h0 ha with a | a
      · rcases keep a with a | ⟨eu, ev, ec⟩
        · exact .inl a
        · subst ev
          right
          by_cases es : x.phase = .stopped
          · right; rw [hv', oStop es]; exact es
          · left
            refine after_out ?_
            cases hkd : net.kind n with
            | fed => exact absurd hkd hn.2
            | core => rw [oCore es hkd, ← ec, ← eu]; exact core_ack
            | broker => rw [oBrk es hkd, ← ec, ← eu]; exact broker_ack h0
      · exact .inr (hstopK a hn.2)
  -- b3
  · intro n hn hs k hk
    rcases hstopN hs (by rw [hn]; decide) with hs | ⟨e, hs⟩
    · exact (E n).acked k (B.b3 n hn hs k hk)
    · subst e
      have es := runs hs
      rw [hv', oBrk es hn]
      rw [oBrk es hn] at hs
      by_cases hd : c = .disc
      · subst hd
        obtain ⟨e0, hal⟩ := broker_disc.2.2.2.2.2.2.2.2.2 _ hs
        by_cases hgl : net.glob n = true
        · exact broker_disc.2.2.2.2.2.2.2.1 e0 hgl hal k hk
        · have hgl : net.glob n = false := by simpa using hgl
          have hg := (allLocal_iff.1 hal).2 k hk
          rw [broker_disc.1] at hg
          by_cases ek : k = u
          · subst ek
            exact (broker_disc.2.2.2.2.2.2.2.2.1 hgl).elim id (fun e => absurd e0 e.1)
          · rw [upd_ne _ _ ek] at hg
            refine broker_disc.2.2.2.1 k ?_
            rcases B.r2 n hn hgl k hk (by rw [← hx]; exact hg) with a | a
            · rw [hx]; exact a
            · exact absurd e0 a.1
      · exact ((broker_frame hd hh).2.2.2.2.1 _ hs).2 k hk
  -- r1
  · intro hal
    by_cases hold : (s.node 0).allLocal (net.kids 0) = true
    · exact hstopK (B.r1 hold) (by rw [h.rootKind]; decide)
    · by_cases e : 0 = v
      · subst e
        rw [hv'] at hal
        have es : x.phase ≠ .stopped := by
          intro es; rw [oStop es, hx] at hal; exact hold hal
        rw [oBrk es h.rootKind] at hal
        left
        refine after_out ?_
        rw [oBrk es h.rootKind]
        by_cases hd : c = .disc
        · subst hd; exact broker_disc.2.2.2.2.2.2.1 rfl hal
        · exfalso
          rw [allLocal_iff, (broker_frame hd hh).1, ← allLocal_iff, hx] at hal
          exact hold hal
      · rw [hne e] at hal; exact absurd hal hold
  -- r2
  · intro n hn hgl k hk hg
    have old : (s.node n).gone k = true → ((after s u v cs o).node n).acked k = true ∨
        (n ≠ 0 ∧ ((after s u v cs o).node n).allLocal (net.kids n) = true) := by
      intro hg
      rcases B.r2 n hn hgl k hk hg with a | a
      · exact .inl ((E n).acked k a)
      · exact .inr ⟨a.1, allLocal_mono (E n) a.2⟩
    by_cases e : n = v
    · subst e
      rw [hv'] at hg
      rcases hgone k hg with hg | ⟨e1, e2, e3⟩
      · exact old (by rw [← hx]; exact hg)
      · subst e1 e2
        rw [hv', oBrk e3 hn]
        exact broker_disc.2.2.2.2.2.2.2.2.1 hgl
    · rw [hne e] at hg; exact old hg
  -- r3
  · intro hal k hk
    by_cases hold : (s.node 0).allLocal (net.kids 0) = true
    · exact (E 0).acked k (B.r3 hold k hk)
    · by_cases e : 0 = v
      · subst e
        rw [hv'] at hal ⊢
        have es : x.phase ≠ .stopped := by
          intro es; rw [oStop es, hx] at hal; exact hold hal
        rw [oBrk es h.rootKind] at hal ⊢
        by_cases hd : c = .disc
        · subst hd
          by_cases hgl : net.glob 0 = true
          · exact broker_disc.2.2.2.2.2.2.2.1 rfl hgl hal k hk
          · have hgl : net.glob 0 = false := by simpa using hgl
            have hg := (allLocal_iff.1 hal).2 k hk
            rw [broker_disc.1] at hg
            by_cases ek : k = u
            · subst ek
              exact (broker_disc.2.2.2.2.2.2.2.2.1 hgl).elim id (fun e => absurd rfl e.1)
            · rw [upd_ne _ _ ek] at hg
              refine broker_disc.2.2.2.1 k ?_
              rcases B.r2 0 h.rootKind hgl k hk (by rw [← hx]; exact hg) with a | a
              · rw [hx]; exact a
              · exact absurd rfl a.1
        · exfalso
          rw [allLocal_iff, (broker_frame hd hh).1, ← allLocal_iff, hx] at hal
          exact hold hal
      · rw [hne e] at hal; exact absurd hal hold

/-- an event which leaves the states alone, but for the marks that this invariant does not use -/
theorem InvB.grow (B : InvB net s) {s' : Sys} (hp : ∀ n, (s'.node n).phase = (s.node n).phase)
    (hg : ∀ n, (s'.node n).gone = (s.node n).gone) (ha : ∀ n, (s'.node n).acked = (s.node n).acked)
    (hl : ∀ a b c, c ≠ Cmd.bye → (c ∈ s'.link a b ↔ c ∈ s.link a b))
    (f1 : ∀ f, net.IsFed f → (s'.node f).called = true → (s'.node f).phase ≠ .running ∨ Cmd.bye ∈ s'.link f (net.par f) ∨
      Cmd.bye ∈ s'.link (net.par f) f) : InvB net s' := by
  have hal : ∀ n l, (s'.node n).allLocal l = (s.node n).allLocal l := by intro n l; unfold NSt.allLocal NSt.all; rw [hg]
  have hall : ∀ n l, (s'.node n).all l = (s.node n).all l := by intro n l; unfold NSt.all; rw [hg]
  have hL : ∀ n, LeftAt net n (s'.node n) ↔ LeftAt net n (s.node n) := by
    intro n; unfold LeftAt; cases net.kind n <;> simp only [hp, hal]
  have hS : ∀ n, Stopping s' n ↔ Stopping s n := by
    intro n; unfold Stopping; rw [hl _ _ _ (by decide), hp]
  refine ⟨?_, f1, ?_, ?_, ?_, ?_, ?_, ?_, ?_, ?_, ?_⟩
  · intro f hf; rw [hl _ _ _ (by decide), hg, hp]; exact B.f0 f hf
  · intro n hn h0; rw [hL, hl _ _ _ (by decide), hg]; exact B.d n hn h0
  · intro n hn hk; rw [hall, hp]; exact B.c2 n hn hk
  · intro n hn hgl f hf; rw [hg, hl _ _ _ (by decide), hp, hp]; exact B.c5 n hn hgl f hf
  · intro n hn; rw [hS]; intro hs f hf; rw [hl _ _ _ (by decide), hp]; exact B.c7 n hn hs f hf
  · intro n hn h0; rw [ha, hl _ _ _ (by decide), hS]; exact B.a n hn h0
  · intro n hn; rw [hS, ha]; exact B.b3 n hn
  · rw [hal, hS]; exact B.r1
  · intro n hn hgl k hk; rw [hg, ha, hal]; exact B.r2 n hn hgl k hk
  · rw [hal, ha]; exact B.r3

theorem InvB.step (h : net.Ok) (I : InvA net s) (B : InvB net s) {e : Ev} (hk : ∀ n, e ≠ .kill n) : InvB net (s.step net e) := by
  cases e with
  | kill n => exact absurd rfl (hk n)
  | take u v => exact B.onTake h I u v
  | start n =>
    have hn : ∀ m, (s.step net (.start n)).node m = s.node m ∨ (s.step net (.start n)).node m = { s.node m with oper := true } := by
      intro m
      by_cases e : m = n
      · subst e; exact .inr (upd_same ..)
      · exact .inl (upd_ne _ _ e)
    refine B.grow ?_ ?_ ?_ (fun _ _ _ _ => Iff.rfl) ?_
    · intro m; rcases hn m with e | e <;> rw [e]
    · intro m; rcases hn m with e | e <;> rw [e]
    · intro m; rcases hn m with e | e <;> rw [e]
    · intro f hf; rcases hn f with e | e <;> rw [e] <;> exact B.f1 f hf
  | finalize f =>
    unfold Sys.step
    simp only
    split
    · rename_i hc
      obtain ⟨hf, hm, hcl⟩ := hc
      have h0 : f ≠ 0 := by intro e; subst e; rw [h.rootKind] at hf; cases hf
      have hp : (s.node (net.par f)).phase = .running := by
        cases hp : (s.node (net.par f)).phase with
        | running => rfl
        | _ =>
          exfalso
          have hg := (I.nodes (net.par f)).core ((h.fed f h0 hm).1 hf) (by rw [hp]; decide) f (kid_par h0 hm)
          have := ((I.nodes _).gone f hg).2
          unfold Done at this; rw [hf] at this
          rw [hcl] at this; cases this
      rw [if_pos hp]
      have hn : ∀ m, upd s.node f { s.node f with called := true } m = s.node m ∨
          upd s.node f { s.node f with called := true } m = { s.node m with called := true } := by
        intro m
        by_cases e : m = f
        · subst e; exact .inr (upd_same ..)
        · exact .inl (upd_ne _ _ e)
      refine B.grow ?_ ?_ ?_ ?_ ?_
      · intro m; rw [put_node]; rcases hn m with e | e <;> simp only [e]
      · intro m; rw [put_node]; rcases hn m with e | e <;> simp only [e]
      · intro m; rw [put_node]; rcases hn m with e | e <;> simp only [e]
      · intro a b c hc
        rw [mem_put]
        constructor
        · rintro (h | ⟨_, h⟩)
          · exact h
          · cases h; exact absurd rfl hc
        · exact .inl
      · intro g hg
        rw [mem_put, mem_put, put_node]
        intro hcg
        by_cases e : g = f
        · subst e; exact .inr (.inl (.inr ⟨rfl, rfl⟩))
        · simp only [upd_ne _ _ e] at hcg ⊢
          rcases B.f1 g hg hcg with a | a | a
          · exact .inl a
          · exact .inr (.inl (.inl a))
          · exact .inr (.inr (.inl a))
    · exact B

theorem InvB.start (net : Net) (o : Bool) : InvB net (Sys.start net o) := by
  have nl : ∀ n l, ¬ ((Sys.start net o).node n).allLocal l = true := by
    intro n l hl
    obtain ⟨h1, h2⟩ := allLocal_iff.1 hl
    cases l with
    | nil => exact h1 rfl
    | cons a l => have := h2 a (List.mem_cons_self ..); cases this
  have nS : ∀ n, ¬ Stopping (Sys.start net o) n := by
    intro n hs
    rcases hs with hs | hs <;> cases hs
  refine ⟨?_, ?_, ?_, ?_, ?_, ?_, ?_, ?_, ?_, ?_, ?_⟩
  · rintro f hf (e | e) <;> cases e
  · intro f hf e; cases e
  · intro n hn h0 hL
    unfold LeftAt at hL
    cases hk : net.kind n with
    | fed => rw [hk] at hL; exact absurd rfl hL
    | core => rw [hk] at hL; exact absurd rfl hL
    | broker => rw [hk] at hL; exact absurd hL (nl _ _)
  · intro n hn hk ha
    refine absurd (allLocal_iff.2 ⟨hk, all_iff.1 ha⟩) (nl n _)
  · intro n hn hgl f hf e; cases e
  · intro n hn hs; exact absurd hs (nS n)
  · intro n hn h0 e; cases e
  · intro n hn hs; exact absurd hs (nS n)
  · intro e; exact absurd e (nl _ _)
  · intro n hn hgl k hk e; cases e
  · intro e; exact absurd e (nl _ _)

theorem InvB.run (h : net.Ok) {es : List Ev} (hk : NoKill es) (o : Bool) : InvB net ((Sys.start net o).run net es) :=
  (run_ind (P := fun s => InvA net s ∧ InvB net s) hk (fun _ _ he I => ⟨InvA.step h I.1 he, InvB.step h I.1 I.2 he⟩) _
    ⟨InvA.start net o, InvB.start net o⟩).2

end Verif.Down
