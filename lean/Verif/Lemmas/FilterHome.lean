import Verif.Lemmas.FilterChain
/-!
# Lemmas about filters: at the home of a filter
-/
namespace Verif.Filt

theorem ofCmds (E : Env) (cs : List Cmd) :
    (cs.map Eff.deliver).filterMap Eff.toWire = cs.filter (fun c => !decide (c.act = .send)) ∧
    (cs.map Eff.deliver).filterMap Eff.toHanded = cs.filter (fun c => decide (c.act = .send)) ∧
    (cs.map Eff.deliver).filterMap Eff.toRecv = [] ∧ (∀ e ∈ cs.map Eff.deliver, e.isHeld = false) ∧
    (∀ e ∈ cs.map Eff.deliver, e.isHold = false) ∧ Eff.crash ∉ cs.map Eff.deliver := by
  refine ⟨?_, ?_, ?_, ?_, ?_, by simp⟩
  · induction cs with
    | nil => rfl
    | cons c cs ih =>
      rw [List.map_cons, List.filterMap_cons, List.filter_cons]
      by_cases h : c.act = .send
      · simp [Eff.toWire, h, ih]
      · simp [Eff.toWire, h, ih]
  · induction cs with
    | nil => rfl
    | cons c cs ih =>
      rw [List.map_cons, List.filterMap_cons, List.filter_cons]
      by_cases h : c.act = .send
      · simp [Eff.toHanded, h, ih]
      · simp [Eff.toHanded, h, ih]
  · rw [List.filterMap_eq_nil_iff]
    intro e he
    obtain ⟨c, -, rfl⟩ := List.mem_map.mp he
    rfl
  · intro e he
    obtain ⟨c, -, rfl⟩ := List.mem_map.mp he
    rfl
  · intro e he
    obtain ⟨c, -, rfl⟩ := List.mem_map.mp he
    rfl

/-- what the home of a filter does with a request -/
structure Env.HomeRes (E : Env) (c : Cmd) (cs : List Cmd) : Prop where
  hand : (E.effHand (cs.map Eff.deliver)).Perm (E.pendHand c)
  recv : (E.effRecv (cs.map Eff.deliver)).Perm (E.pendRecv c)
  key : (cs.filter (fun c => !decide (c.act = .send))).filterMap E.key = (E.key c).toList
  keyD : (cs.filter (fun c => !decide (c.act = .send))).filterMap E.keyDest = (E.keyDest c).toList
  ok : ∀ x ∈ cs.filter (fun c => !decide (c.act = .send)), E.WireOk x

/-- only messages -/
theorem homeRes_send {E : Env} {c : Cmd} {cs : List Cmd} (h : ∀ x ∈ cs, x.act = .send)
    (h1 : cs.map (fun c => (c.msg, c.dst)) = E.pendHand c) (h2 : E.pendRecv c = []) (h3 : E.key c = none)
    (h4 : E.keyDest c = none) : E.HomeRes c cs := by
  obtain ⟨w1, w2, w3, -, -, -⟩ := ofCmds E cs
  have n : cs.filter (fun c => !decide (c.act = .send)) = [] := by
    rw [List.filter_eq_nil_iff]; intro x hx; simp [h x hx]
  have a : cs.filter (fun c => decide (c.act = .send)) = cs := by
    rw [List.filter_eq_self]; intro x hx; simp [h x hx]
  refine ⟨?_, ?_, ?_, ?_, ?_⟩
  · unfold Env.effHand; rw [w1, w2, n, a, ← h1]; simp
  · unfold Env.effRecv; rw [w1, w3, n, h2]; exact .refl _
  · rw [n, h3]; rfl
  · rw [n, h4]; rfl
  · rw [n]; simp

/-- messages and one answer -/
theorem homeRes_ans {E : Env} {c r : Cmd} {cs : List Cmd} (h : ∀ x ∈ cs, x.act = .send) (hr : r.act ≠ .send)
    (h1 : (cs.map (fun c => (c.msg, c.dst)) ++ E.pendHand r).Perm (E.pendHand c))
    (h2 : (E.pendRecv r).Perm (E.pendRecv c))
    (h3 : E.key r = E.key c) (h4 : E.keyDest r = E.keyDest c) (hok : E.WireOk r) :
    E.HomeRes c (cs ++ [r]) := by
  obtain ⟨w1, w2, w3, -, -, -⟩ := ofCmds E (cs ++ [r])
  have n : (cs ++ [r]).filter (fun c => !decide (c.act = .send)) = [r] := by
    rw [List.filter_append, List.filter_eq_nil_iff.mpr (by intro x hx; simp [h x hx])]
    simp [hr]
  have a : (cs ++ [r]).filter (fun c => decide (c.act = .send)) = cs := by
    rw [List.filter_append, List.filter_eq_self.mpr (by intro x hx; simp [h x hx])]
    simp [hr]
  refine ⟨?_, ?_, ?_, ?_, ?_⟩
  · unfold Env.effHand; rw [w1, w2, n, a]; simpa using h1
  · unfold Env.effRecv; rw [w1, w3, n]; simpa using h2
  · rw [n, ← h3]; cases h5 : E.key r <;> simp [h5]
  · rw [n, ← h4]; cases h5 : E.keyDest r <;> simp [h5]
  · rw [n]; intro x hx; rw [List.mem_singleton] at hx; subst hx; exact hok

/-- **at the home of a filter** -/
theorem home_res {E : Env} {c : Cmd} (hw : E.WireOk c) (hr : c.act.isRequest = true) :
    E.HomeRes c (atHome c.dst.1 c.dst.2 (E.home c.dst.1 c.dst.2) c) := by
  obtain ⟨hne, hf, h1, h2, h3, h4⟩ := hw.req hr
  have hop : E.op c.filter = hf.op := by
    unfold Env.op Cmd.filter
    dsimp only
    rw [if_neg hne, h1]; rfl
  have hcl : E.toClone c = hf.cloning := by unfold Env.toClone; rw [h1]
  rw [h1]
  unfold atHome
  dsimp only
  rw [h2]
  simp only [Bool.false_eq_true, if_false]
  cases hact : c.act with
  | forFilter =>
    cases hc : hf.cloning with
    | true =>
      obtain ⟨op, ho⟩ := h3 hc
      rw [ho]
      simp only [if_true]
      refine homeRes_send ?_ ?_ ?_ ?_ ?_
      · intro x hx
        obtain ⟨m, -, rfl⟩ := List.mem_map.mp hx
        rfl
      · unfold Env.pendHand
        rw [hact]
        dsimp only
        rw [hcl, hc, if_pos rfl, List.map_map]
        unfold Env.clones
        rw [hop, ho]
        rfl
      · unfold Env.pendRecv; rw [hact]
      · unfold Env.key; rw [hact]
      · unfold Env.keyDest; rw [hact]
    | false =>
      cases ho : hf.op with
      | none =>
        simp only [reduceCtorEq, decide_false, Bool.or_false, if_true]
        refine homeRes_send ?_ ?_ ?_ ?_ ?_
        · intro x hx; rw [List.mem_singleton] at hx; subst hx; rfl
        · unfold Env.pendHand
          rw [hact]
          dsimp only
          rw [hcl, hc]
          unfold Env.apply
          rw [hop, ho]
          rfl
        · unfold Env.pendRecv; rw [hact]
        · unfold Env.key; rw [hact]
        · unfold Env.keyDest; rw [hact]
      | some op =>
        simp only [reduceCtorEq, decide_false, Bool.or_false, if_true, Bool.false_eq_true, if_false, and_false]
        have ha : E.apply c.filter c.msg = op.proc c.msg := by unfold Env.apply; rw [hop, ho]
        cases hp : op.proc c.msg with
        | none =>
          refine homeRes_send (by simp [Cmd.ofAct]) ?_ ?_ ?_ ?_
          · unfold Env.pendHand
            rw [hact]
            dsimp only
            rw [hcl, hc, ha, hp]
            rfl
          · unfold Env.pendRecv; rw [hact]
          · unfold Env.key; rw [hact]
          · unfold Env.keyDest; rw [hact]
        | some m =>
          refine homeRes_send (by simp [Cmd.ofMsg]) ?_ ?_ ?_ ?_
          · unfold Env.pendHand
            rw [hact]
            dsimp only
            rw [hcl, hc, ha, hp]
            rfl
          · unfold Env.pendRecv; rw [hact]
          · unfold Env.key; rw [hact]
          · unfold Env.keyDest; rw [hact]
  | forFilterRet =>
    have hc := h4 (by rw [hact]; decide)
    obtain ⟨e, e1, e2, e3, e4⟩ := hw.ret hact
    rw [hc]
    have hkd : ∀ r : Cmd, r.act = .result ∨ r.act = .null → E.keyDest r = E.keyDest c := by
      intro r hr
      unfold Env.keyDest
      rw [hact]
      rcases hr with hr | hr <;> rw [hr]
    have hpr : ∀ r : Cmd, r.act = .result ∨ r.act = .null → E.pendRecv r = E.pendRecv c := by
      intro r hr
      unfold Env.pendRecv
      rw [hact]
      rcases hr with hr | hr <;> rw [hr]
    cases ho : hf.op with
    | none =>
      simp only [reduceCtorEq, decide_false, decide_true, Bool.or_false, if_true, Bool.true_eq_false,
        Bool.false_eq_true, if_false]
      refine homeRes_ans (cs := []) (by simp) (by simp) ?_ (by rw [hpr _ (.inl rfl)]) ?_ (hkd _ (.inl rfl)) ?_
      · unfold Env.pendHand
        rw [hact]
        dsimp only
        unfold Env.apply
        rw [hop, ho, e1]
        exact .refl _
      · unfold Env.key; rw [hact]
      · refine ⟨(nomatch ·), (nomatch ·), fun _ => ⟨e, e1, e2, e3, e4⟩, (nomatch ·), (nomatch ·), (nomatch ·),
          .inr (.inl rfl)⟩
    | some op =>
      have ha : E.apply c.filter c.msg = op.proc c.msg := by unfold Env.apply; rw [hop, ho]
      simp only [reduceCtorEq, decide_false, decide_true, Bool.or_false, if_true, Bool.true_eq_false,
        Bool.false_eq_true, if_false, and_false]
      cases hp : op.proc c.msg with
      | none =>
        simp only [Cmd.ofAct, if_true]
        refine homeRes_ans (cs := []) (by simp) (by simp) ?_ (by rw [hpr _ (.inr rfl)]) ?_ (hkd _ (.inr rfl)) ?_
        · unfold Env.pendHand
          rw [hact]
          dsimp only
          rw [ha, hp]
          exact .refl _
        · unfold Env.key; rw [hact]
        · refine ⟨(nomatch ·), (nomatch ·), (nomatch ·), fun _ => ⟨e, e1, e2⟩, (nomatch ·), (nomatch ·),
            .inr (.inl rfl)⟩
      | some m =>
        simp only [Cmd.ofMsg, reduceCtorEq, if_false]
        refine homeRes_ans (cs := []) (by simp) (by simp) ?_ (by rw [hpr _ (.inl rfl)]) ?_ (hkd _ (.inl rfl)) ?_
        · unfold Env.pendHand
          rw [hact]
          dsimp only
          rw [ha, hp, e1]
          exact .refl _
        · unfold Env.key; rw [hact]
        · refine ⟨(nomatch ·), (nomatch ·), fun _ => ⟨e, e1, e2, e3, e4⟩, (nomatch ·), (nomatch ·), (nomatch ·),
            .inr (.inl rfl)⟩
  | forDestRet =>
    have hc := h4 (by rw [hact]; decide)
    obtain ⟨e, e1, e2⟩ := hw.dret hact
    rw [hc]
    have hk : ∀ r : Cmd, r.act = .destResult ∨ r.act = .nullDest → E.key r = E.key c := by
      intro r hr
      unfold Env.key
      rw [hact]
      rcases hr with hr | hr <;> rw [hr]
    cases ho : hf.op with
    | none =>
      simp only [reduceCtorEq, decide_false, decide_true, Bool.or_true, if_true, Bool.true_eq_false,
        Bool.false_eq_true, if_false]
      have ha : E.apply c.filter c.msg = some c.msg := by unfold Env.apply; rw [hop, ho]
      refine homeRes_ans (cs := []) (by simp) (by simp) ?_ ?_ (hk _ (.inl rfl)) ?_ ?_
      · unfold Env.pendHand
        rw [hact]
        dsimp only
        rw [ha, e1]
        simp
      · unfold Env.pendRecv
        rw [hact]
        dsimp only
        rw [ha, e1]
        simp
      · unfold Env.keyDest; rw [hact]
      · refine ⟨(nomatch ·), (nomatch ·), (nomatch ·), (nomatch ·), (nomatch ·), fun _ => ⟨e, e1, e2⟩,
          .inr (.inr rfl)⟩
    | some op =>
      have ha : E.apply c.filter c.msg = op.proc c.msg := by unfold Env.apply; rw [hop, ho]
      simp only [reduceCtorEq, decide_false, decide_true, Bool.or_true, if_true, Bool.true_eq_false,
        Bool.false_eq_true, if_false, and_true]
      cases hp : op.proc c.msg with
      | none =>
        simp only [Cmd.ofAct, if_true]
        refine homeRes_ans (cs := []) (by simp) (by simp) ?_ ?_ (hk _ (.inr rfl)) ?_ ?_
        · unfold Env.pendHand
          rw [hact]
          dsimp only
          rw [ha, hp]
          exact .refl _
        · unfold Env.pendRecv
          rw [hact]
          dsimp only
          rw [ha, hp]
        · unfold Env.keyDest; rw [hact]
        · refine ⟨(nomatch ·), (nomatch ·), (nomatch ·), (nomatch ·), (nomatch ·), fun _ => ⟨e, e1, e2⟩,
            .inr (.inr rfl)⟩
      | some m =>
        dsimp only
        by_cases hd : m.dest = c.msg.dest
        · simp only [hd, ne_eq, not_true, if_false, Cmd.ofMsg, reduceCtorEq]
          refine homeRes_ans (cs := []) (by simp) (by simp) ?_ ?_ (hk _ (.inl rfl)) ?_ ?_
          · unfold Env.pendHand
            rw [hact]
            dsimp only
            rw [ha, hp, e1]
            dsimp only
            rw [if_pos hd]
            exact .refl _
          · unfold Env.pendRecv
            rw [hact]
            dsimp only
            rw [ha, hp, e1]
            dsimp only
            rw [if_pos hd]
          · unfold Env.keyDest; rw [hact]
          · refine ⟨(nomatch ·), (nomatch ·), (nomatch ·), (nomatch ·), (nomatch ·), fun _ => ⟨e, e1, e2⟩,
              .inr (.inr rfl)⟩
        · simp only [hd, ne_eq, not_false_eq_true, Cmd.ofMsg, Cmd.ofAct, if_true]
          refine homeRes_ans (by simp) (by simp) ?_ ?_ (hk _ (.inr rfl)) ?_ ?_
          · unfold Env.pendHand
            rw [hact]
            dsimp only
            rw [ha, hp, e1]
            dsimp only
            rw [if_neg hd]
            exact .refl _
          · unfold Env.pendRecv
            rw [hact]
            dsimp only
            rw [ha, hp, e1]
            dsimp only
            rw [if_neg hd]
          · unfold Env.keyDest; rw [hact]
          · refine ⟨(nomatch ·), (nomatch ·), (nomatch ·), (nomatch ·), (nomatch ·), fun _ => ⟨e, e1, e2⟩,
              .inr (.inr rfl)⟩
  | send => rw [hact] at hr; cases hr
  | result => rw [hact] at hr; cases hr
  | destResult => rw [hact] at hr; cases hr
  | null => rw [hact] at hr; cases hr
  | nullDest => rw [hact] at hr; cases hr
  | ignore => rw [hact] at hr; cases hr

end Verif.Filt
