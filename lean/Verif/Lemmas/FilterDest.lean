import Verif.Lemmas.FilterStep
/-!
# Lemmas about filters: destination filters, and the invariant of a run
-/
namespace Verif.Filt

/-- **the invariant after effects which only send messages** -/
theorem Env.Inv.plain {E : Env} {y : Sys} {hs rs ts} (h : E.Inv y hs rs ts) {es : List Eff} {A B}
    (hp : E.Plain es) (hk : (es.filterMap Eff.toWire).filterMap E.key = []) (hh : ∀ e ∈ es, e.isHold = false)
    (hA : (E.effHand es).Perm A) (hB : (E.effRecv es).Perm B) : E.Inv (y.effects es) (hs ++ A) (rs ++ B) ts := by
  obtain ⟨o1, o2, o3, o4⟩ := effects_out y es
  obtain ⟨g1, g2, g3⟩ := effects_ff y es
  have hkd0 : (es.filterMap Eff.toWire).filterMap E.keyDest = [] := by
    rw [List.filterMap_eq_nil_iff]; exact hp.keyD
  unfold Env.effHand at hA
  unfold Env.effRecv at hB
  refine ⟨?_, ?_, ?_, ?_, ?_, ?_, ?_, ?_, ?_, ?_, ?_, ?_, ?_, ?_⟩
  · rw [g1]; exact h.inn
  · rw [g2]; exact h.home
  · rw [o1, o2]
    have a := h.hand
    rw [List.perm_iff_count] at a hA ⊢
    intro x
    have := a x; have := hA x
    simp only [List.map_append, List.flatMap_append, List.count_append] at *
    omega
  · rw [o2, o3]
    have a := h.recv
    rw [List.perm_iff_count] at a hB ⊢
    intro x
    have := a x; have := hB x
    simp only [List.flatMap_append, List.count_append] at *
    omega
  · rw [o2]
    intro c hc
    rw [List.mem_append] at hc
    exact hc.elim (h.ok c) (hp.wireOk c)
  · rw [g1, o2, List.filterMap_append, hk, List.append_nil]; exact h.keys
  · rw [g1]; exact h.nodup
  · rw [g1]; exact h.lt
  · rw [g1, o2, List.filterMap_append, hkd0, List.append_nil]; exact h.keysD
  · rw [g1]; exact h.nodupD
  · rw [g1]; exact h.leD
  · rw [o4]; simp only [hp.crash, decide_false, Bool.or_false]; exact h.crash
  · rw [g1, holds_nil _ hh]; exact h.holds
  · intro g; rw [g1, held_nil _ hp.held]; exact h.held g

/-! ## Cloning destination filters -/

structure Env.CloneRes (E : Env) (es : List Eff) (A : List (Msg × (Int × Int))) (B : List (Int × Msg)) :
    Prop where
  plain : E.Plain es
  key : (es.filterMap Eff.toWire).filterMap E.key = []
  hold : ∀ e ∈ es, e.isHold = false
  hand : (E.effHand es).Perm A
  recv : (E.effRecv es).Perm B

theorem Env.CloneRes.append {E : Env} {a b : List Eff} {A A' B B'} (h : E.CloneRes a A B)
    (h' : E.CloneRes b A' B') : E.CloneRes (a ++ b) (A ++ A') (B ++ B') := by
  refine ⟨⟨?_, ?_, ?_, ?_⟩, ?_, ?_, ?_, ?_⟩
  · simp [h.plain.crash, h'.plain.crash]
  · intro c hc
    rw [List.filterMap_append, List.mem_append] at hc
    exact hc.elim (h.plain.wireOk c) (h'.plain.wireOk c)
  · intro c hc
    rw [List.filterMap_append, List.mem_append] at hc
    exact hc.elim (h.plain.keyD c) (h'.plain.keyD c)
  · intro e he
    rw [List.mem_append] at he
    exact he.elim (h.plain.held e) (h'.plain.held e)
  · rw [List.filterMap_append, List.filterMap_append, h.key, h'.key]; rfl
  · intro e he
    rw [List.mem_append] at he
    exact he.elim (h.hold e) (h'.hold e)
  · exact (effHand_append E a b).trans (h.hand.append h'.hand)
  · exact (effRecv_append E a b).trans (h.recv.append h'.recv)

theorem cloneRes_nil (E : Env) : E.CloneRes [] [] [] :=
  ⟨⟨by simp, by simp, by simp, by simp⟩, rfl, by simp, .refl _, .refl _⟩

theorem cloneRes_give (E : Env) (c : Cmd) : E.CloneRes [.give c] [] [(c.dst.2, c.msg)] := by
  refine ⟨⟨by simp, by simp [Eff.toWire], by simp [Eff.toWire], by simp [Eff.isHeld]⟩, rfl,
    by simp [Eff.isHold], ?_, ?_⟩
  · exact .refl _
  · exact .refl _

theorem cloneRes_deliver (E : Env) {c : Cmd} (h : c.act = .send) : E.CloneRes [.deliver c] [(c.msg, c.dst)] [] := by
  refine ⟨⟨by simp, by simp [Eff.toWire, h], by simp [Eff.toWire, h], by simp [Eff.isHeld]⟩, ?_,
    by simp [Eff.isHold], ?_, ?_⟩
  · simp [Eff.toWire, h]
  · simp [Env.effHand, Eff.toWire, Eff.toHanded, h]
  · simp [Env.effRecv, Eff.toWire, Eff.toRecv, h]

theorem clones_local {E : Env} (e : Ept) (h : Int) (ms : List Msg) :
    E.CloneRes (ms.map (fun m =>
      if m.dest = e.key then Eff.give { Cmd.ofMsg m with dst := (e.fed, h) } else .deliver (Cmd.ofMsg m)))
      ((ms.filter (fun x => !decide (x.dest = e.key))).map (fun x => (x, byName)))
      ((ms.filter (fun x => x.dest = e.key)).map (fun x => (h, x))) := by
  induction ms with
  | nil => exact cloneRes_nil E
  | cons m ms ih =>
    rw [List.map_cons]
    by_cases hm : m.dest = e.key
    · rw [if_pos hm]
      have := (cloneRes_give E { Cmd.ofMsg m with dst := (e.fed, h) }).append ih
      simpa [List.filter_cons, hm, Cmd.ofMsg] using this
    · rw [if_neg hm]
      have := (cloneRes_deliver E (c := Cmd.ofMsg m) rfl).append ih
      simpa [List.filter_cons, hm, Cmd.ofMsg, byName] using this

/-- the cloning filters of a destination -/
theorem runClones_res {E : Env} {s : FF} (hs : s.In E) (e : Ept) (h : Int) (c : Cmd)
    (hg : ∀ f ∈ e.clones, E.Works f ∧ f.cloning = true) :
    E.CloneRes (s.runClones e h c) (E.cloneHand e c.msg) (E.cloneRecv e h c.msg) := by
  unfold FF.runClones Env.cloneHand Env.cloneRecv
  generalize e.clones = l at hg
  induction l with
  | nil => exact cloneRes_nil E
  | cons f l ih =>
    rw [List.flatMap_cons, List.flatMap_cons, List.flatMap_cons]
    refine Env.CloneRes.append ?_ (ih (fun g hg' => hg g (List.mem_cons_of_mem _ hg')))
    obtain ⟨⟨hoff, hw⟩, hcl⟩ := hg f (List.mem_cons_self ..)
    rw [hoff]
    simp only [Bool.false_eq_true, if_false]
    rw [hs.fed, hs.ops]
    by_cases hl : f.core = E.fed
    · rw [if_pos hl] at hw
      obtain ⟨op, hop⟩ := hw
      rw [if_pos hl, if_pos hl, if_pos hl, hop]
      have hc : E.clones f c.msg = op.vec c.msg := by
        unfold Env.clones Env.op; rw [if_pos hl, hop]
      rw [hc]
      exact clones_local e h (op.vec c.msg)
    · rw [if_neg hl] at hw
      obtain ⟨hfi, h1, h2, h3, h4⟩ := hw
      rw [if_neg hl, if_neg hl, if_neg hl]
      refine ⟨⟨by simp, ?_, ?_, by simp [Eff.isHeld]⟩, ?_, by simp [Eff.isHold], ?_, ?_⟩
      · intro c' h'
        simp only [List.filterMap_cons, Eff.toWire, List.filterMap_nil, List.mem_singleton] at h'
        subst h'
        refine ⟨fun _ => ⟨hl, hfi, h1, h2, fun _ => h4 hcl, fun h => absurd rfl h⟩, (nomatch ·), (nomatch ·),
          (nomatch ·), (nomatch ·), (nomatch ·), .inl rfl⟩
      · intro c' h'
        simp only [List.filterMap_cons, Eff.toWire, List.filterMap_nil, List.mem_singleton] at h'
        subst h'
        rfl
      · rfl
      · simp only [Env.effHand, List.filterMap_cons, Eff.toHanded, Eff.toWire, List.filterMap_nil,
          List.map_nil, List.nil_append, List.flatMap_cons, List.flatMap_nil, List.append_nil, Env.pendHand,
          List.nil_append]
        have : E.toClone { c with act := .forFilter, dst := (f.core, f.handle) } = true := by
          unfold Env.toClone
          dsimp only
          rw [h1]
          exact h3.trans hcl
        rw [if_pos this, clones_of_dst E (f := f) rfl]
      · rfl

/-! ## Markers of destination filters -/

theorem markDest_fields (s : FF) (fid t : Int) (pid : Int) (hn : (fid, pid) ∉ s.ongoingDest) :
    (s.markDest fid pid t).1.ongoingDest = s.ongoingDest ++ [(fid, pid)] ∧
    (s.markDest fid pid t).1.ongoing = s.ongoing ∧
    (s.markDest fid pid t).1.counter = s.counter ∧
    (s.markDest fid pid t).1.fed = s.fed ∧ (s.markDest fid pid t).1.epts = s.epts ∧
    (s.markDest fid pid t).1.ops = s.ops := by
  unfold FF.markDest FF.addReturn
  dsimp only
  rw [if_neg hn]
  exact ⟨rfl, rfl, rfl, rfl, rfl, rfl⟩

theorem unmarkDest_fields (s : FF) (fid pid : Int) :
    (s.unmarkDest fid pid).1.ongoingDest = s.ongoingDest.filter (fun p => p ≠ (fid, pid)) ∧
    (s.unmarkDest fid pid).1.ongoing = s.ongoing ∧
    (s.unmarkDest fid pid).1.counter = s.counter ∧ (s.unmarkDest fid pid).1.fed = s.fed ∧
    (s.unmarkDest fid pid).1.epts = s.epts ∧ (s.unmarkDest fid pid).1.ops = s.ops := by
  unfold FF.unmarkDest
  dsimp only
  obtain ⟨a, b, c⟩ := clearReturn_same { s with ongoingDest := s.ongoingDest.filter (fun p => p ≠ (fid, pid)) } pid
  exact ⟨b, a, c⟩

/-- **the invariant when a message is sent out to a destination filter** -/
theorem Env.Inv.destOut {E : Env} {y : Sys} {hs rs ts} (h : E.Inv y hs rs ts) {c : Cmd} (t : Int)
    (hw : E.WireOk c) (ha : c.act = .forDestRet) {fid : Int}
    (hk : E.keyDest c = some (fid, y.ff.counter + 1)) :
    E.Inv ({ y with ff := ({ y.ff with counter := y.ff.counter + 1 }.markDest fid (y.ff.counter + 1) t).1 }.effects
      (({ y.ff with counter := y.ff.counter + 1 }.markDest fid (y.ff.counter + 1) t).2 ++ [Eff.wire c]))
      (hs ++ E.pendHand c) (rs ++ E.pendRecv c) ts := by
  have hn : (fid, y.ff.counter + 1) ∉ { y.ff with counter := y.ff.counter + 1 }.ongoingDest := by
    intro hm
    have := h.leD _ hm
    dsimp only at this
    omega
  obtain ⟨f1, f2, f3, f4, f5, f6⟩ := markDest_fields { y.ff with counter := y.ff.counter + 1 } fid t
    (y.ff.counter + 1) hn
  generalize hs1 : ({ y.ff with counter := y.ff.counter + 1 }.markDest fid (y.ff.counter + 1) t).1 = s1 at *
  have he2 : ({ y.ff with counter := y.ff.counter + 1 }.markDest fid (y.ff.counter + 1) t).2 =
      if busy y.ff.ongoingDest fid then [] else [.blockFed fid] := rfl
  rw [he2]
  obtain ⟨o1, o2, o3, o4⟩ := effects_out { y with ff := s1 }
    ((if busy y.ff.ongoingDest fid then [] else [.blockFed fid]) ++ [Eff.wire c])
  obtain ⟨g1, g2, g3⟩ := effects_ff { y with ff := s1 }
    ((if busy y.ff.ongoingDest fid then [] else [.blockFed fid]) ++ [Eff.wire c])
  have w1 : ((if busy y.ff.ongoingDest fid then [] else [Eff.blockFed fid]) ++ [Eff.wire c]).filterMap Eff.toHanded
      = [] := by split <;> rfl
  have w2 : ((if busy y.ff.ongoingDest fid then [] else [Eff.blockFed fid]) ++ [Eff.wire c]).filterMap Eff.toWire
      = [c] := by split <;> rfl
  have w3 : ((if busy y.ff.ongoingDest fid then [] else [Eff.blockFed fid]) ++ [Eff.wire c]).filterMap Eff.toRecv
      = [] := by split <;> rfl
  have w4 : ∀ e ∈ ((if busy y.ff.ongoingDest fid then [] else [Eff.blockFed fid]) ++ [Eff.wire c]),
      e.isHold = false := by split <;> simp [Eff.isHold]
  have w5 : Eff.crash ∉ ((if busy y.ff.ongoingDest fid then [] else [Eff.blockFed fid]) ++ [Eff.wire c]) := by
    split <;> simp
  rw [w1, List.append_nil] at o1
  rw [w2] at o2
  rw [w3, List.append_nil] at o3
  have hkn : E.key c = none := by unfold Env.key; rw [ha]
  refine ⟨?_, ?_, ?_, ?_, ?_, ?_, ?_, ?_, ?_, ?_, ?_, ?_, ?_, ?_⟩
  · rw [g1]; exact h.inn.of_eq f4 f5 f6
  · rw [g2]; exact h.home
  · rw [o1, o2, List.flatMap_append, ← List.append_assoc]
    refine h.hand.append ?_
    simp
  · rw [o3, o2, List.flatMap_append, ← List.append_assoc]
    refine h.recv.append ?_
    simp
  · rw [o2]
    intro x hx
    rw [List.mem_append, List.mem_singleton] at hx
    rcases hx with hx | rfl
    · exact h.ok x hx
    · exact hw
  · rw [g1, o2, List.filterMap_append]
    show s1.ongoing.Perm _
    rw [f2]
    simpa [hkn] using h.keys
  · rw [g1]; show s1.ongoing.Nodup; rw [f2]; exact h.nodup
  · rw [g1]
    show ∀ p ∈ s1.ongoing, p.2 < s1.counter
    rw [f2, f3]
    intro p hp
    have := h.lt p hp
    show p.2 < y.ff.counter + 1
    omega
  · rw [g1, o2, List.filterMap_append]
    show s1.ongoingDest.Perm _
    rw [f1, List.filterMap_cons, hk]
    exact h.keysD.append_right _
  · rw [g1]
    show s1.ongoingDest.Nodup
    rw [f1, List.nodup_append]
    refine ⟨h.nodupD, by simp, ?_⟩
    intro a ha' b hb e
    rw [List.mem_singleton] at hb
    exact hn (hb ▸ e ▸ ha')
  · rw [g1]
    show ∀ p ∈ s1.ongoingDest, p.2 ≤ s1.counter
    rw [f1, f3]
    intro p hp
    rw [List.mem_append, List.mem_singleton] at hp
    show p.2 ≤ y.ff.counter + 1
    rcases hp with hp | rfl
    · have := h.leD p hp; omega
    · exact Int.le_refl _
  · rw [o4]; simp only [w5, decide_false, Bool.or_false]; exact h.crash
  · rw [g1, holds_nil _ w4]
    show HoldOk y.holds s1.ongoing ts
    rw [f2]; exact h.holds
  · intro g
    rw [g1, effects_append]
    have : ∀ z : Sys, (z.effects [Eff.wire c]).held = z.held := fun z => rfl
    rw [this]
    show _ ↔ busy s1.ongoingDest g = true
    rw [f1, busy_append]
    have hh := h.held g
    have hf := h.held fid
    split
    · rename_i hb
      show g ∈ y.held ↔ _
      rw [hh]
      by_cases hg : fid = g
      · subst hg; simp [hb]
      · simp [hg]
    · show g ∈ y.held ++ [fid] ↔ _
      rw [List.mem_append, List.mem_singleton, hh]
      simp only [Bool.or_eq_true, decide_eq_true_eq]
      constructor
      · rintro (h | h)
        · exact .inl h
        · exact .inr h.symm
      · rintro (h | h)
        · exact .inl h
        · exact .inr h.symm

/-- **the invariant when an answer of a destination filter is done with** -/
theorem Env.Inv.destIn {E : Env} {y : Sys} {hs hs' rs rs' ts} (h : E.Inv y hs rs ts) {j : Nat} {c : Cmd}
    (hj : y.wire[j]? = some c) {k : Int × Int} (hkd : E.keyDest c = some k) (hk : E.key c = none)
    (hh : hs.Perm (hs' ++ E.pendHand c)) (hrs : rs.Perm (rs' ++ E.pendRecv c)) :
    E.Inv ({ y with wire := y.wire.eraseIdx j, ff := (y.ff.unmarkDest k.1 k.2).1 }.effects
      (y.ff.unmarkDest k.1 k.2).2) hs' rs' ts := by
  obtain ⟨v1, v2, v3, v4, v5, v6⟩ := unmarkDest_fields y.ff k.1 k.2
  have he2 : (y.ff.unmarkDest k.1 k.2).2 =
      if busy (y.ff.ongoingDest.filter (fun p => p ≠ (k.1, k.2))) k.1 then [] else [.unblockFed k.1] := rfl
  generalize hs1 : (y.ff.unmarkDest k.1 k.2).1 = s1 at *
  rw [he2]
  generalize hes : (if busy (y.ff.ongoingDest.filter (fun p => p ≠ (k.1, k.2))) k.1 then []
    else [Eff.unblockFed k.1]) = es
  have w1 : es.filterMap Eff.toHanded = [] := by rw [← hes]; split <;> rfl
  have w2 : es.filterMap Eff.toWire = [] := by rw [← hes]; split <;> rfl
  have w3 : es.filterMap Eff.toRecv = [] := by rw [← hes]; split <;> rfl
  have w4 : ∀ e ∈ es, e.isHold = false := by rw [← hes]; split <;> simp [Eff.isHold]
  have w5 : Eff.crash ∉ es := by rw [← hes]; split <;> simp
  obtain ⟨o1, o2, o3, o4⟩ := effects_out { y with wire := y.wire.eraseIdx j, ff := s1 } es
  obtain ⟨g1, g2, g3⟩ := effects_ff { y with wire := y.wire.eraseIdx j, ff := s1 } es
  rw [w1, List.append_nil] at o1
  rw [w2, List.append_nil] at o2
  rw [w3, List.append_nil] at o3
  have hperm : y.wire.Perm (c :: y.wire.eraseIdx j) := mem_perm_eraseIdx hj
  have hkeys : y.ff.ongoingDest.Perm (k :: (y.wire.eraseIdx j).filterMap E.keyDest) := by
    have b := hperm.filterMap E.keyDest
    rw [List.filterMap_cons, hkd] at b
    exact h.keysD.trans b
  have hmem : k ∈ y.ff.ongoingDest := hkeys.symm.mem_iff.mp (List.mem_cons_self ..)
  have hbk : busy y.ff.ongoingDest k.1 = true := List.any_eq_true.mpr ⟨k, hmem, by simp⟩
  refine ⟨?_, ?_, ?_, ?_, ?_, ?_, ?_, ?_, ?_, ?_, ?_, ?_, ?_, ?_⟩
  · rw [g1]; exact h.inn.of_eq v4 v5 v6
  · rw [g2]; exact h.home
  · rw [o1, o2]
    have a := h.hand
    have b := hperm.flatMap_right E.pendHand
    rw [List.perm_iff_count] at a b hh ⊢
    intro x
    have := a x; have := b x; have := hh x
    simp only [List.flatMap_cons, List.count_append] at *
    omega
  · rw [o3, o2]
    have a := h.recv
    have b := hperm.flatMap_right E.pendRecv
    rw [List.perm_iff_count] at a b hrs ⊢
    intro x
    have := a x; have := b x; have := hrs x
    simp only [List.flatMap_cons, List.count_append] at *
    omega
  · rw [o2]; intro x hx; exact h.ok x (mem_of_eraseIdx hx)
  · rw [g1, o2]
    show s1.ongoing.Perm _
    rw [v2]
    have b := hperm.filterMap E.key
    rw [List.filterMap_cons, hk] at b
    exact h.keys.trans b
  · rw [g1]; show s1.ongoing.Nodup; rw [v2]; exact h.nodup
  · rw [g1]; show ∀ p ∈ s1.ongoing, p.2 < s1.counter; rw [v2, v3]; exact h.lt
  · rw [g1, o2]
    show s1.ongoingDest.Perm _
    rw [v1]
    exact perm_remove (k := (k.1, k.2)) h.nodupD hkeys
  · rw [g1]; show s1.ongoingDest.Nodup; rw [v1]; exact h.nodupD.filter _
  · rw [g1]
    show ∀ p ∈ s1.ongoingDest, p.2 ≤ s1.counter
    rw [v1, v3]
    intro p hp
    exact h.leD p (List.mem_filter.mp hp).1
  · rw [o4]; simp only [w5, decide_false, Bool.or_false]; exact h.crash
  · rw [g1, holds_nil _ w4]
    show HoldOk y.holds s1.ongoing ts
    rw [v2]; exact h.holds
  · intro g
    rw [g1]
    show _ ↔ busy s1.ongoingDest g = true
    rw [v1, ← hes]
    split
    · rename_i hb
      show g ∈ y.held ↔ _
      rw [h.held g]
      by_cases hg : g = k.1
      · subst hg; rw [hb, hbk]
      · rw [busy_remove_other hg]
    · rename_i hb
      show g ∈ y.held.filter (fun i => i ≠ k.1) ↔ _
      rw [List.mem_filter, h.held g]
      by_cases hg : g = k.1
      · subst hg; simp only [ne_eq, not_true, decide_false, Bool.false_eq_true, and_false, false_iff]; exact hb
      · rw [busy_remove_other hg]; simp [hg]

/-- effects do not depend on what is not yet on the wire, nor on the filter federate -/
theorem effects_erase (es : List Eff) (y : Sys) (s : FF) {j : Nat} (hj : j < y.wire.length) :
    { y with wire := y.wire.eraseIdx j, ff := s }.effects es =
      { y.effects es with wire := (y.effects es).wire.eraseIdx j, ff := s } := by
  unfold Sys.effects
  induction es generalizing y with
  | nil => rfl
  | cons e es ih =>
    rw [List.foldl_cons, List.foldl_cons]
    have hl : j < (y.effect e).wire.length := by
      rw [(effect_out y e).2.1, List.length_append]; omega
    rw [← ih (y.effect e) hl]
    congr 1
    cases e with
    | wire c => simp only [Sys.effect]; rw [List.eraseIdx_append_of_lt_length hj]
    | deliver c =>
      simp only [Sys.effect]
      split
      · rfl
      · rw [List.eraseIdx_append_of_lt_length hj]
    | give c => rfl
    | block f => rfl
    | unblock f =>
      simp only [Sys.effect, Sys.dropBlock]
      split <;> rfl
    | blockFed f => rfl
    | unblockFed f => rfl
    | crash => rfl

end Verif.Filt
