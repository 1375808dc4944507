import Verif.Lemmas.RoutingStep
/-! What a node does with an answer, for C55. -/
namespace Verif.Routes

variable {net : Net} {s : Sys}

section
variable (I : Inv1 net s) (h : net.Ok)
include I h

/-- a broker passes an answer on to the child it is for -/
theorem treat_forward {v : Node} {src src' : Option Id} {d : Id} {w : Who} {ok : Bool} {e : Ent}
    (hg : Good net s (net.par v) v (.ack src d w ok)) (hm : MayPut net s (net.par v) v (.ack src d w ok))
    (he : e ∈ (s.node v).ents) (hw : e.who = w)
    (hsrc : ∀ n, w = .brk n → src' = (s.node v).id)
    {x : NodeSt}
    (hx : x = { s.node v with
      ents := answered w d (s.node v).ents, table := emplace (s.node v).table d e.route }) :
    Treated net s v (.ack src d w ok) (x, [(e.route, .ack src' d w ok)], []) false := by
  obtain ⟨m1, m2, m3, m4⟩ := hm
  obtain ⟨hc, _, g3, g4, g5⟩ := hg
  have hv : v ≠ 0 := hc.1
  have hnone : e.id = none := m3 e he hw
  have hj : d ≠ 0 → Assigned s w d ∧ (s.node (net.par v)).table d = some v := by
    intro hd
    cases ok with
    | true => exact (g4 rfl).2
    | false => exact absurd (g5 rfl) hd
  obtain ⟨I1, E, h1, h2⟩ := I.answer h hv he hw hnone m1 m2 m4 hj hx
  obtain ⟨hce, o, t⟩ := I.ent v e he
  rw [hw] at t
  have hr0 : e.route ≠ 0 := hce.1
  have hrv : e.route ≠ v := (hce.ne h).symm
  have tn := I.turn e.route w hr0
  have hEu : EuNone net s e.route w := ⟨e, by rw [hce.2]; exact he, hw, rfl, hnone⟩
  have n1 : nreg net s e.route w = 0 := Nat.eq_zero_of_not_pos fun hp =>
    (tn.reg hp).2 ⟨e, by rw [hce.2]; exact he, hw, rfl⟩
  have n2 : nack net s e.route w = 0 := Nat.eq_zero_of_not_pos fun hp => (tn.ack hp).2 hEu
  have hents : x.ents = answered w d (s.node v).ents := by rw [hx]
  refine ⟨?_, ?_, rfl, rfl, ?_, ?_, ?_, fun h => absurd h hv, .down _ _ rfl (by rw [hx]) hce rfl⟩
  · rw [after_one]
    refine I1.put ⟨hce, ⟨o, E.trail t⟩, ?_, ?_, g5⟩ ⟨?_, n2, ?_, ?_⟩
    · intro n hn i hi
      rw [hsrc n hn] at hi
      exact E.id _ _ hi
    · intro ho
      refine ⟨(g4 ho).1, E.assigned (g4 ho).2.1, ?_⟩
      rw [setNode_same]; exact h1 (g4 ho).1
    · refine Eq.trans (nreg_setNode ?_ _ w) n1
      rw [hx]
    · unfold VNone; rw [setNode_ne _ _ hrv]; exact tn.wait hEu
    · rintro ⟨e', he', hw', _, hn'⟩
      rw [hce.2, setNode_same, hents] at he'
      obtain ⟨e0, _, hw0, _, _, hi⟩ := mem_answered he'
      rcases hi with ⟨hne, _⟩ | ⟨_, hi⟩
      · exact hne (hw0.symm.trans hw')
      · rw [hi] at hn'; cases hn'
  · rw [after_one]; exact E.trans (Ext.ofNode rfl)
  · intro y hy; rw [List.mem_singleton] at hy; subst hy; rfl
  · intro d' hd'
    have : ok = true ∧ d = d' := by simpa [isOk] using hd'
    obtain ⟨ho, rfl⟩ := this
    refine .inr ?_
    rw [after_node, setNode_same, h1 (g4 ho).1]
    intro hh; cases hh
  · intro d' c hd' ht hne
    obtain ⟨e1, e2⟩ := h2 d' c ht hd' hne
    subst e1 e2
    refine ⟨_, List.mem_singleton.2 rfl, rfl, ?_⟩
    cases ok with
    | true => simp [isOk]
    | false => exact absurd (g5 rfl) hd'

/-- nothing is done -/
theorem treat_nothing {v : Node} {c : Cmd} (hl : ∀ d, isOk d c = false) :
    Treated net s v c (s.node v, [], []) false := by
  refine ⟨?_, ?_, rfl, rfl, ?_, ?_, ?_, ?_, .nothing rfl rfl⟩
  · rw [after_nil, setNode_self]; exact I
  · rw [after_nil, setNode_self]; exact Ext.refl s
  · intro x hx; cases hx
  · intro d hd; rw [hl] at hd; cases hd
  · intro d c _ ht hne; exact absurd ht hne
  · intro hv; subst hv; exact Nat.le_refl _

/-- the answer to the node's own registration -/
theorem treat_own {v : Node} {src : Option Id} {d : Id}
    (hg : Good net s (net.par v) v (.ack src d (.brk v) true)) :
    Treated net s v (.ack src d (.brk v) true)
      ({ s.node v with id := some d, up := src, delayed := [] },
        (s.node v).delayed.map (fun c => (net.par v, c.from d)), []) false := by
  obtain ⟨hc, _, g3, g4, g5⟩ := hg
  have hv : v ≠ 0 := hc.1
  obtain ⟨x1, hx1⟩ : ∃ x1 : NodeSt, x1 = { s.node v with id := some d, up := src } := ⟨_, rfl⟩
  obtain ⟨x2, hx2⟩ : ∃ x2 : NodeSt, x2 = { s.node v with id := some d, up := src, delayed := [] } := ⟨_, rfl⟩
  obtain ⟨I1, E1⟩ := I.named h hv (g4 rfl).2.1 (g4 rfl).2.2 (g3 v rfl) hx1
  have hsame : (s.setNode v x1).node v = x1 := setNode_same _ _ _
  obtain ⟨I2, E2⟩ := I1.release h hv (d := d) (x := x2) (by rw [hsame, hx1]) (by rw [hsame, hx2, hx1])
  rw [setNode_set] at I2 E2
  rw [hsame] at I2
  have hd1 : x1.delayed = (s.node v).delayed := by rw [hx1]
  rw [hd1] at I2
  rw [← hx2]
  have hid : x2.id = some d := by rw [hx2]
  have htab : x2.table = (s.node v).table := by rw [hx2]
  refine ⟨I2, ?_, rfl, rfl, ?_, ?_, ?_, fun h => absurd h hv, .release d rfl (by rw [hx2]) hv⟩
  · exact (E1.trans E2).trans (Ext.ofNode (puts_node _ _ _))
  · intro y hy
    obtain ⟨c, hcm, rfl⟩ := List.mem_map.1 hy
    obtain ⟨_, a, b, g, e, _⟩ := I.del v c hcm
    subst e; rfl
  · intro d' hd'
    have : d = d' := by simpa [isOk] using hd'
    subst this
    refine .inl ⟨none, ?_⟩
    show ((after s v _).node v).id = some d
    rw [after_node, setNode_same]; exact hid
  · intro d' c _ ht hne; rw [htab] at ht; exact absurd ht hne

/-- the answer to a federate's registration, at its core -/
theorem treat_local {v : Node} {src : Option Id} {d : Id} {nm : String} (hcore : net.core v = true)
    (hg : Good net s (net.par v) v (.ack src d (.fed nm) true)) {x : NodeSt}
    (hx : x = { s.node v with
      feds := (s.node v).feds.map (fun l => if l.name = nm then { l with id := some d } else l) }) :
    Treated net s v (.ack src d (.fed nm) true) (x, [], []) false := by
  obtain ⟨hc, ⟨o, t⟩, g3, g4, g5⟩ := hg
  have hv : v ≠ 0 := hc.1
  have ho := t.1.ofCore h hcore
  subst ho
  have hfeds : x.feds = (s.node v).feds.map (fun l => if l.name = nm then { l with id := some d } else l) := by
    rw [hx]
  have back : ∀ l, l ∈ x.feds → ∃ l0 ∈ (s.node v).feds, l.name = l0.name ∧ l.reent = l0.reent ∧
      l.done = l0.done ∧ ((l.name ≠ nm ∧ l.id = l0.id) ∨ (l.name = nm ∧ l.id = some d)) := by
    intro l hl
    rw [hfeds] at hl
    obtain ⟨l0, h0, h1⟩ := List.mem_map.1 hl
    by_cases hw : l0.name = nm
    · rw [if_pos hw] at h1; subst h1; exact ⟨l0, h0, rfl, rfl, rfl, .inr ⟨hw, rfl⟩⟩
    · rw [if_neg hw] at h1; subst h1; exact ⟨l0, h0, rfl, rfl, rfl, .inl ⟨hw, rfl⟩⟩
  have forth : ∀ l, l ∈ (s.node v).feds → ∃ l' ∈ x.feds, l'.name = l.name ∧
      ((l.name ≠ nm ∧ l'.id = l.id) ∨ (l.name = nm ∧ l'.id = some d)) := by
    intro l hl
    rw [hfeds]
    by_cases hw : l.name = nm
    · exact ⟨_, List.mem_map.2 ⟨l, hl, if_pos hw⟩, rfl, .inr ⟨hw, rfl⟩⟩
    · exact ⟨_, List.mem_map.2 ⟨l, hl, if_neg hw⟩, rfl, .inl ⟨hw, rfl⟩⟩
  have same : ∀ l i, l ∈ (s.node v).feds → l.name = nm → l.id = some i → i = d := by
    intro l i hl hn hi
    have a1 := (I.ownFed v l i hl hi).1
    rw [hn] at a1
    obtain ⟨e1, m1, w1, i1⟩ := a1
    obtain ⟨e2, m2, w2, i2⟩ := (g4 rfl).2.1
    have := I.keys 0 e1 e2 m1 m2 (w1.trans w2.symm)
    subst this
    rw [i1] at i2; cases i2; rfl
  have E : Ext s (s.setNode v x) := by
    refine Ext.setNode ?_ ?_ ?_ ?_ ?_
    · intro e he; exact ⟨e, by rw [hx]; exact he, rfl, rfl, fun _ h => h⟩
    · intro i hi; rw [hx]; exact hi
    · intro i c hi; rw [hx]; exact hi
    · intro hi; rw [hx]; exact hi
    · intro l hl
      obtain ⟨l', hl', h1, h2⟩ := forth l hl
      refine ⟨l', hl', h1, fun i hi => ?_⟩
      rcases h2 with ⟨_, h2⟩ | ⟨hn, h2⟩
      · rw [h2]; exact hi
      · rw [h2, same l i hl hn hi]
  have hdel : x.delayed = (s.node v).delayed := by rw [hx]
  refine ⟨?_, ?_, rfl, rfl, ?_, ?_, ?_, fun h => absurd h hv, .nothing rfl hdel⟩
  · rw [after_nil]
    refine I.soft (by rw [hx]) (by rw [hx]) (by rw [hx]) (by rw [hx]) E ?_ ?_ ?_ ?_ ?_
    · intro l l' hl hl' hn
      obtain ⟨k, hk, n1, r1, d1, c1⟩ := back l hl
      obtain ⟨k', hk', n2, r2, d2, c2⟩ := back l' hl'
      have := I.fedKeys v k k' hk hk' (n1.symm.trans (hn.trans n2))
      subst this
      obtain ⟨a, b, c, e⟩ := l
      obtain ⟨a', b', c', e'⟩ := l'
      simp only at n1 n2 r1 r2 d1 d2 c1 c2 hn ⊢
      subst n1 r1 r2 d1 d2 hn
      rcases c1 with ⟨p, q⟩ | ⟨p, q⟩ <;> rcases c2 with ⟨p', q'⟩ | ⟨p', q'⟩
      · rw [q, q']
      · exact absurd p' p
      · exact absurd p p'
      · rw [q, q']
    · intro l hl
      obtain ⟨k, hk, n1, r1, _, c1⟩ := back l hl
      rw [r1]; exact I.fedRe v k hk
    · intro l i hl hi
      obtain ⟨k, hk, n1, r1, _, c1⟩ := back l hl
      rcases c1 with ⟨_, q⟩ | ⟨p, q⟩
      · rw [n1]; exact I.ownFed v k i hk (q ▸ hi)
      · rw [q] at hi; cases hi
        rw [p]; exact (g4 rfl).2
    · intro c hcm
      rw [hdel] at hcm
      obtain ⟨h1, a, b, g, e, o, t⟩ := I.del v c hcm
      exact ⟨h1, a, b, g, e, o, E.trail t⟩
    · intro w _; exact .inl (Nat.le_of_eq (nreg_setNode hdel v w))
  · rw [after_nil]; exact E
  · intro y hy; cases hy
  · intro d' hd'
    have : d = d' := by simpa [isOk] using hd'
    subst this
    obtain ⟨_, l, hl, hn⟩ := t.2.1
    obtain ⟨l', hl', h1, h2⟩ := forth l hl
    refine .inl ⟨some nm, l', ?_, h1.trans hn, ?_⟩
    · rw [after_node, setNode_same]; exact hl'
    · rcases h2 with ⟨p, _⟩ | ⟨_, q⟩
      · exact absurd hn p
      · exact q
  · intro d' c _ ht hne
    have : x.table = (s.node v).table := by rw [hx]
    rw [this] at ht; exact absurd ht hne

theorem treat_ack {v u : Node} {src : Option Id} {d : Id} {w : Who} {ok admit dyn : Bool}
    (hg : Good net s u v (.ack src d w ok)) (hm : MayPut net s u v (.ack src d w ok)) :
    Treated net s v (.ack src d w ok) ((s.node v).onCmd net v u admit dyn (.ack src d w ok)).1
      ((s.node v).onCmd net v u admit dyn (.ack src d w ok)).2 := by
  have hc : Child net u v := hg.1
  have hu := hc.2
  subst hu
  have hg' := hg
  obtain ⟨_, ⟨o, t⟩, g3, g4, g5⟩ := hg'
  have hm' := hm
  obtain ⟨m1, m2, m3, m4⟩ := hm'
  have find : v ≠ o → ∃ e, (s.node v).ent w = some e ∧ e ∈ (s.node v).ents ∧ e.who = w ∧ e.id = none := by
    intro hne
    obtain ⟨e, he, hw, _⟩ := t.2.2 v .refl t.1 hne
    cases hf : (s.node v).ent w with
    | none => exact absurd hw (ent_none hf e he)
    | some e' => exact ⟨e', rfl, (ent_some hf).1, (ent_some hf).2, m3 e' (ent_some hf).1 (ent_some hf).2⟩
  cases w with
  | brk n =>
    have hno := t.brk
    by_cases hn : n = v
    · subst hn
      have e : (s.node n).onCmd net n (net.par n) admit dyn (.ack src d (.brk n) ok) =
          (s.node n).ackBrk n (net.par n) src d n ok := by
        unfold NodeSt.onCmd; simp
      rw [e]
      unfold NodeSt.ackBrk
      rw [if_pos rfl]
      cases ok with
      | true => exact treat_own I h hg
      | false => exact treat_nothing I h (fun d => rfl)
    · have hvo : v ≠ o := by rw [← hno]; exact fun e => hn e.symm
      have hcore : net.core v = false := by
        cases hcv : net.core v with
        | false => rfl
        | true => exact absurd (t.1.ofCore h hcv) hvo
      obtain ⟨e, hf, he, hw, hnone⟩ := find hvo
      have e1 : (s.node v).onCmd net v (net.par v) admit dyn (.ack src d (.brk n) ok) =
          (({ s.node v with
            ents := answered (.brk n) d (s.node v).ents, table := emplace (s.node v).table d e.route },
            [(e.route, .ack (s.node v).id d (.brk n) ok)], []), false) := by
        unfold NodeSt.onCmd
        simp only [hcore, Bool.false_and, Bool.false_eq_true, if_false]
        unfold NodeSt.ackBrk
        rw [if_neg hn, hf]
        simp only [hnone]
        rfl
      rw [e1]
      exact treat_forward I h hg hm he hw (fun _ _ => rfl) rfl
  | fed nm =>
    cases hcv : net.core v with
    | true =>
      have e1 : (s.node v).onCmd net v (net.par v) admit dyn (.ack src d (.fed nm) ok) =
          ((s.node v).ackLocal d nm ok, false) := by
        unfold NodeSt.onCmd; simp [hcv]
      rw [e1]
      cases ok with
      | true => exact treat_local I h hcv hg rfl
      | false => exact treat_nothing I h (fun d => rfl)
    | false =>
      have hvo : v ≠ o := by
        intro e; have := t.2.1.1; rw [← e, hcv] at this; cases this
      obtain ⟨e, hf, he, hw, hnone⟩ := find hvo
      have e1 : (s.node v).onCmd net v (net.par v) admit dyn (.ack src d (.fed nm) ok) =
          (({ s.node v with
            ents := answered (.fed nm) d (s.node v).ents, table := emplace (s.node v).table d e.route },
            [(e.route, .ack src d (.fed nm) ok)], []), false) := by
        unfold NodeSt.onCmd
        simp only [hcv, Bool.false_eq_true, if_false]
        unfold NodeSt.ackFed
        rw [hf]
        simp only [hnone]
        rfl
      rw [e1]
      exact treat_forward I h hg hm he hw (fun n hn => by cases hn) rfl
end

end Verif.Routes
