import Verif.Lemmas.RoutingMicro2
/-! The invariant of the registration protocol: answers on their way, for C55. -/
namespace Verif.Routes

variable {net : Net} {s : Sys}

/-- the entries of a broker after an answer for `w` -/
def answered (w : Who) (j : Id) (es : List Ent) : List Ent :=
  es.map (fun e => if e.who = w then { e with id := some j } else e)

theorem mem_answered {w : Who} {j : Id} {es : List Ent} {e : Ent} (h : e ∈ answered w j es) :
    ∃ e0 ∈ es, e.who = e0.who ∧ e.route = e0.route ∧ e.reent = e0.reent ∧
      ((e0.who ≠ w ∧ e = e0) ∨ (e0.who = w ∧ e.id = some j)) := by
  obtain ⟨e0, h0, h1⟩ := List.mem_map.1 h
  by_cases hw : e0.who = w
  · rw [if_pos hw] at h1; subst h1
    exact ⟨e0, h0, rfl, rfl, rfl, .inr ⟨hw, rfl⟩⟩
  · rw [if_neg hw] at h1; subst h1
    exact ⟨e0, h0, rfl, rfl, rfl, .inl ⟨hw, rfl⟩⟩

theorem answered_mem {w : Who} {j : Id} {es : List Ent} {e : Ent} (h : e ∈ es) :
    ∃ e' ∈ answered w j es, e'.who = e.who ∧ e'.route = e.route ∧
      ((e.who ≠ w ∧ e' = e) ∨ (e.who = w ∧ e'.id = some j)) := by
  by_cases hw : e.who = w
  · exact ⟨_, List.mem_map.2 ⟨e, h, if_pos hw⟩, rfl, rfl, .inr ⟨hw, rfl⟩⟩
  · exact ⟨_, List.mem_map.2 ⟨e, h, if_neg hw⟩, rfl, rfl, .inl ⟨hw, rfl⟩⟩

/-- a broker takes note of an answer -/
theorem Inv1.answer (I : Inv1 net s) (h : net.Ok) {v : Node} {w : Who} {j : Id} {e : Ent} (hv : v ≠ 0)
    (he : e ∈ (s.node v).ents) (hw : e.who = w) (hnone : e.id = none)
    (hr : nreg net s v w = 0) (ha : nack net s v w = 0) (hn : ¬ EuNone net s v w)
    (hj : j ≠ 0 → Assigned s w j ∧ (s.node (net.par v)).table j = some v)
    {x : NodeSt}
    (hx : x = { s.node v with
      ents := answered w j (s.node v).ents, table := emplace (s.node v).table j e.route }) :
    Inv1 net (s.setNode v x) ∧ Ext s (s.setNode v x) ∧ (j ≠ 0 → x.table j = some e.route) ∧
    (∀ i c, x.table i = some c → i ≠ 0 → (s.node v).table i ≠ some c → i = j ∧ c = e.route) := by
  have hpv : net.par v ≠ v := Nat.ne_of_lt (h.below v hv)
  have hents : x.ents = answered w j (s.node v).ents := by rw [hx]
  have htab : x.table = emplace (s.node v).table j e.route := by rw [hx]
  have one : ∀ e0, e0 ∈ (s.node v).ents → e0.who = w → e0 = e := fun e0 h0 h1 =>
    I.keys v e0 e h0 he (h1.trans hw.symm)
  have htj : j ≠ 0 → (s.node v).table j = none := by
    intro hj0
    cases ht : (s.node v).table j with
    | none => rfl
    | some c =>
      obtain ⟨e0, he0, h1, h2⟩ := I.tab v j c ht hj0
      have := I.sole (I.entId v e0 j he0 h1 hj0).1 (hj hj0).1
      rw [one e0 he0 this, hnone] at h1; cases h1
  have hxj : j ≠ 0 → x.table j = some e.route := by
    intro h0; rw [htab]; simp [emplace, htj h0]
  have E : Ext s (s.setNode v x) := by
    refine Ext.setNode (fun e0 he0 => ?_) (fun _ h => by rw [hx]; exact h) (fun i c hi => ?_)
      (fun h => by rw [hx]; exact h) (fun l hl => ⟨l, by rw [hx]; exact hl, rfl, fun _ h => h⟩)
    · obtain ⟨e', h1, h2, h3, h4⟩ := answered_mem (w := w) (j := j) he0
      refine ⟨e', by rw [hents]; exact h1, h2, h3, fun i hi => ?_⟩
      rcases h4 with ⟨_, h4⟩ | ⟨h4, _⟩
      · rw [h4]; exact hi
      · rw [one e0 he0 h4, hnone] at hi; cases hi
    · rw [htab]; unfold emplace
      by_cases hij : i = j
      · subst hij; rw [if_pos rfl, hi]
      · rw [if_neg hij]; exact hi
  refine ⟨I.hard (by rw [hx]) (by rw [hx]) E ?_ (fun e => absurd e hv) ?_, E, hxj, ?_⟩
  · refine ⟨?_, ?_, ?_, ?_, ?_, ?_, ?_, ?_⟩
    · rw [hents]
      intro a b ha' hb hab
      obtain ⟨a0, h1, h2, h3, h4, h5⟩ := mem_answered ha'
      obtain ⟨b0, g1, g2, g3, g4, g5⟩ := mem_answered hb
      have heq := I.keys v a0 b0 h1 g1 (by rw [← h2, ← g2]; exact hab)
      subst heq
      rcases h5 with ⟨h5, h6⟩ | ⟨h5, h6⟩ <;> rcases g5 with ⟨g5, g6⟩ | ⟨g5, g6⟩
      · rw [h6, g6]
      · exact absurd g5 h5
      · exact absurd h5 g5
      · obtain ⟨aw, ar, ai, are⟩ := a
        obtain ⟨bw, br, bi, bre⟩ := b
        simp only at h2 h3 h4 h6 g2 g3 g4 g6
        rw [h2, h3, h4, h6, g2, g3, g4, g6]
    · rw [hents]; intro a ha'
      obtain ⟨a0, h1, _, _, h4, _⟩ := mem_answered ha'
      rw [h4]; exact I.noRe v a0 h1
    · rw [hents]; intro a ha'
      obtain ⟨a0, h1, h2, h3, _, _⟩ := mem_answered ha'
      obtain ⟨g1, o, g2⟩ := I.ent v a0 h1
      rw [h2, h3]; exact ⟨g1, o, E.trail g2⟩
    · intro a i ha' hi h0
      rw [hents] at ha'
      obtain ⟨a0, h1, h2, h3, _, h5⟩ := mem_answered ha'
      rcases h5 with ⟨_, h5⟩ | ⟨h5, h6⟩
      · subst h5
        obtain ⟨g1, g2⟩ := I.entId v a i h1 hi h0
        have := E.table v i _ g2; rw [setNode_same] at this
        exact ⟨E.assigned g1, this⟩
      · rw [hi] at h6; cases h6
        rw [h2, h3, h5, one a0 h1 h5]
        exact ⟨E.assigned (hj h0).1, hxj h0⟩
    · intro i c hi h0
      rw [hents]
      rw [htab] at hi; unfold emplace at hi
      by_cases hij : i = j
      · subst hij
        rw [if_pos rfl, htj h0] at hi; cases hi
        obtain ⟨e', h1, h2, h3, h4⟩ := answered_mem (w := w) (j := i) he
        rcases h4 with ⟨h4, _⟩ | ⟨_, h4⟩
        · exact absurd hw h4
        · exact ⟨e', h1, h4, h3⟩
      · rw [if_neg hij] at hi
        obtain ⟨e0, h1, h2, h3⟩ := I.tab v i c hi h0
        obtain ⟨e', g1, g2, g3, g4⟩ := answered_mem (w := w) (j := j) h1
        rcases g4 with ⟨_, g4⟩ | ⟨g4, _⟩
        · subst g4; exact ⟨e', g1, h2, h3⟩
        · rw [one e0 h1 g4, hnone] at h2; cases h2
    · intro i c _ hi h0
      rw [setNode_ne _ _ hpv]
      rw [htab] at hi; unfold emplace at hi
      by_cases hij : i = j
      · subst hij; exact (hj h0).2
      · rw [if_neg hij] at hi; exact I.tabUp v i c hv hi h0
    · intro i _ hi
      rw [hx] at hi
      obtain ⟨h1, h2⟩ := I.own v i hv hi
      rw [setNode_ne _ _ hpv]; exact ⟨E.assigned h1, h2⟩
    · intro i _ hi
      rw [hx] at hi
      rw [setNode_ne _ _ hpv]; exact I.up v i hv hi
  · refine I.turnEnts h (by rw [hx]) w ?_ (fun _ => .inr ⟨hr, ha, hn⟩) ?_
    · intro e0 he0
      rw [hents]
      refine ⟨fun hh => ?_, fun hh => ?_⟩
      · obtain ⟨a0, h1, h2, _, _, h5⟩ := mem_answered hh
        rcases h5 with ⟨_, h5⟩ | ⟨h5, _⟩
        · rw [h5]; exact h1
        · exact absurd (h2.trans h5) he0
      · obtain ⟨e', h1, _, _, h4⟩ := answered_mem (w := w) (j := j) hh
        rcases h4 with ⟨_, h4⟩ | ⟨h4, _⟩
        · rw [← h4]; exact h1
        · exact absurd h4 he0
    · intro c hc
      rw [hents]
      have t := I.turn c w hc.1
      refine ⟨fun ⟨a, ha', h1, h2⟩ => ?_, fun ⟨a, ha', h1, h2, h3⟩ => ?_⟩
      · obtain ⟨a0, g1, g2, g3, _, _⟩ := mem_answered ha'
        have hEu : Eu net s c w := ⟨a0, by rw [hc.2]; exact g1, by rw [← g2]; exact h1, by rw [← g3]; exact h2⟩
        apply Nat.eq_zero_of_not_pos
        intro hp; exact (t.reg hp).2 hEu
      · obtain ⟨a0, g1, g2, g3, _, g5⟩ := mem_answered ha'
        rcases g5 with ⟨g5, _⟩ | ⟨_, g5⟩
        · exact absurd (g2.symm.trans h1) g5
        · rw [g5] at h3; cases h3
  · intro i c hi h0 hne
    rw [htab] at hi; unfold emplace at hi
    by_cases hij : i = j
    · subst hij; rw [if_pos rfl, htj h0] at hi; cases hi; exact ⟨rfl, rfl⟩
    · rw [if_neg hij] at hi; exact absurd hi hne

/-- a node learns its own identifier -/
theorem Inv1.named (I : Inv1 net s) (h : net.Ok) {v : Node} {d : Id} {src : Option Id} (hv : v ≠ 0)
    (hd : Assigned s (.brk v) d) (ht : (s.node (net.par v)).table d = some v)
    (hup : ∀ i, src = some i → (s.node (net.par v)).id = some i)
    {x : NodeSt} (hx : x = { s.node v with id := some d, up := src }) :
    Inv1 net (s.setNode v x) ∧ Ext s (s.setNode v x) := by
  have hpv : net.par v ≠ v := Nat.ne_of_lt (h.below v hv)
  have E : Ext s (s.setNode v x) := by
    refine Ext.setNode (fun e he => ⟨e, by rw [hx]; exact he, rfl, rfl, fun _ h => h⟩) (fun i hi => ?_)
      (fun i c hi => by rw [hx]; exact hi) (fun h => by rw [hx]; exact h)
      (fun l hl => ⟨l, by rw [hx]; exact hl, rfl, fun _ h => h⟩)
    obtain ⟨e, he, h1, h2⟩ := (I.own v i hv hi).1
    obtain ⟨e', he', h1', h2'⟩ := hd
    have := I.keys 0 e e' he he' (h1.trans h1'.symm)
    subst this
    rw [h2] at h2'; cases h2'
    rw [hx]
  refine ⟨I.hard (by rw [hx]) (by rw [hx]) E ?_ (fun e => absurd e hv) ?_, E⟩
  · refine ⟨by rw [hx]; exact I.keys v, by rw [hx]; exact I.noRe v, ?_, ?_, by rw [hx]; exact I.tab v, ?_, ?_, ?_⟩
    · intro e he
      rw [hx] at he
      obtain ⟨h1, o, h2⟩ := I.ent v e he; exact ⟨h1, o, E.trail h2⟩
    · intro e i he hi h0
      rw [hx] at he ⊢
      obtain ⟨h1, h2⟩ := I.entId v e i he hi h0
      rw [hx] at E
      exact ⟨E.assigned h1, h2⟩
    · intro i c _ hi h0
      rw [hx] at hi
      rw [setNode_ne _ _ hpv]; exact I.tabUp v i c hv hi h0
    · intro i _ hi
      rw [setNode_ne _ _ hpv]
      rw [hx] at hi; cases hi
      exact ⟨E.assigned hd, ht⟩
    · intro i _ hi
      rw [setNode_ne _ _ hpv]
      rw [hx] at hi; exact hup i hi
  · intro u w hu
    have t := I.turn u w hu
    have ents : ∀ u, ((s.setNode v x).node u).ents = (s.node u).ents := by
      intro u; by_cases hu : u = v
      · subst hu; rw [setNode_same, hx]
      · rw [setNode_ne _ _ hu]
    have nr : nreg net (s.setNode v x) u w = nreg net s u w := nreg_setNode (by rw [hx]) u w
    have na : nack net (s.setNode v x) u w = nack net s u w := rfl
    refine ⟨by rw [nr, na]; exact t.one, fun hh => ?_, fun hh => ?_, fun hh => ?_⟩
    · rw [nr] at hh; unfold VNone Eu; rw [ents, ents]; exact t.reg hh
    · rw [na] at hh; unfold VNone EuNone; rw [ents, ents]; exact t.ack hh
    · unfold VNone; rw [ents]; unfold EuNone at hh; rw [ents] at hh; exact t.wait hh

theorem isReg_from (w : Who) (d : Id) (c : Cmd) : isReg w (c.from d) = isReg w c := by
  cases c <;> rfl

theorem puts_node (s : Sys) (u : Node) (cs : List (Node × Cmd)) : (s.puts u cs).node = s.node := by
  induction cs generalizing s with
  | nil => rfl
  | cons c cs ih => exact ih (s.put u c.1 c.2)

theorem puts_know (s : Sys) (u : Node) (cs : List (Node × Cmd)) : (s.puts u cs).know = s.know := by
  induction cs generalizing s with
  | nil => rfl
  | cons c cs ih => exact ih (s.put u c.1 c.2)

theorem puts_got (s : Sys) (u : Node) (cs : List (Node × Cmd)) : (s.puts u cs).got = s.got := by
  induction cs generalizing s with
  | nil => rfl
  | cons c cs ih => exact ih (s.put u c.1 c.2)

theorem puts_sent (s : Sys) (u : Node) (cs : List (Node × Cmd)) : (s.puts u cs).sent = s.sent := by
  induction cs generalizing s with
  | nil => rfl
  | cons c cs ih => exact ih (s.put u c.1 c.2)

theorem puts_stray (s : Sys) (u : Node) (cs : List (Node × Cmd)) : (s.puts u cs).stray = s.stray := by
  induction cs generalizing s with
  | nil => rfl
  | cons c cs ih => exact ih (s.put u c.1 c.2)

/-- what the commands `cs` which `u` sends leave on the link to `b` -/
def outTo (k : List Id) (cs : List (Node × Cmd)) (b : Node) : List Parcel :=
  (cs.filter (fun c => c.1 == b)).map (fun c => ⟨c.2, k⟩)

theorem puts_link (s : Sys) (u : Node) (cs : List (Node × Cmd)) (a b : Node) :
    (s.puts u cs).link a b = if a = u then s.link a b ++ outTo (s.know u) cs b else s.link a b := by
  induction cs generalizing s with
  | nil => simp [Sys.puts, outTo]
  | cons c cs ih =>
    have := ih (s.put u c.1 c.2)
    have e : s.puts u (c :: cs) = (s.put u c.1 c.2).puts u cs := rfl
    rw [e, this, put_link]
    have hk : (s.put u c.1 c.2).know = s.know := rfl
    rw [hk]
    by_cases ha : a = u
    · subst ha
      by_cases hb : b = c.1
      · subst hb
        simp [outTo]
      · have : (c.1 == b) = false := by simpa using fun e => hb e.symm
        simp [outTo, hb, this]
    · simp [ha]

/-- the waiting registrations are sent -/
theorem Inv1.release (I : Inv1 net s) (h : net.Ok) {v : Node} {d : Id} (hv : v ≠ 0)
    (hid : (s.node v).id = some d) {x : NodeSt} (hx : x = { s.node v with delayed := [] }) :
    Inv1 net ((s.setNode v x).puts v ((s.node v).delayed.map (fun c => (net.par v, c.from d)))) ∧
    Ext s (s.setNode v x) := by
  have hpv : net.par v ≠ v := Nat.ne_of_lt (h.below v hv)
  have E : Ext s (s.setNode v x) :=
    Ext.setNode (fun e he => ⟨e, by rw [hx]; exact he, rfl, rfl, fun _ h => h⟩) (fun i hi => by rw [hx]; exact hi)
      (fun i c hi => by rw [hx]; exact hi) (fun h => by rw [hx]; exact h)
      (fun l hl => ⟨l, by rw [hx]; exact hl, rfl, fun _ h => h⟩)
  have nlt : ∀ w, nreg net (s.setNode v x) v w ≤ nreg net s v w := by
    intro w; unfold nreg; rw [setNode_same, hx]; simp; exact Nat.le_add_right _ _
  have I1 : Inv1 net (s.setNode v x) :=
    I.soft (by rw [hx]) (by rw [hx]) (by rw [hx]) (by rw [hx]) E (by rw [hx]; exact I.fedKeys v)
      (by rw [hx]; exact I.fedRe v) (by rw [hx]; exact I.ownFed v) (by rw [hx]; intro c hc; cases hc)
      (fun w _ => .inl (nlt w))
  refine ⟨I1.relink (puts_node _ _ _) ?_ ?_, E⟩
  · intro a b p hp
    rw [puts_link] at hp
    by_cases ha : a = v
    · subst ha
      rw [if_pos rfl] at hp
      rcases List.mem_append.1 hp with hp | hp
      · exact I1.good _ _ _ hp
      · unfold outTo at hp
        obtain ⟨c, hc, e⟩ := List.mem_map.1 hp
        obtain ⟨hc, hb⟩ := List.mem_filter.1 hc
        obtain ⟨c0, h0, e0⟩ := List.mem_map.1 hc
        subst e0; subst e
        have hb : net.par a = b := by simpa using hb
        subst hb
        obtain ⟨_, src, w, g, e1, o, t⟩ := I.del a c0 h0
        subst e1
        refine ⟨⟨hv, rfl⟩, ⟨o, E.trail t⟩, fun i hi => ?_, (fun hi => by cases hi), rfl⟩
        cases hi
        exact E.id _ _ hid
    · rw [if_neg ha] at hp; exact I1.good _ _ _ hp
  · intro u w hu
    have t := I.turn u w hu
    have ents : ∀ u, (((s.setNode v x).puts v ((s.node v).delayed.map (fun c => (net.par v, c.from d)))).node u).ents
        = (s.node u).ents := by
      intro u; rw [puts_node]; by_cases hu : u = v
      · subst hu; rw [setNode_same, hx]
      · rw [setNode_ne _ _ hu]
    have nr : nreg net ((s.setNode v x).puts v ((s.node v).delayed.map (fun c => (net.par v, c.from d)))) u w
        = nreg net s u w := by
      unfold nreg
      rw [puts_link, puts_node]
      by_cases hv' : u = v
      · subst hv'
        rw [if_pos rfl, setNode_same, hx, List.countP_append]
        have : (outTo ((s.setNode u x).know u) ((s.node u).delayed.map (fun c => (net.par u, c.from d)))
            (net.par u)).countP (fun p => isReg w p.cmd) = (s.node u).delayed.countP (isReg w) := by
          unfold outTo
          rw [List.filter_eq_self.2 (by
            intro c hc
            obtain ⟨c0, _, e0⟩ := List.mem_map.1 hc
            subst e0; simp)]
          rw [List.map_map, List.countP_map]
          apply List.countP_congr
          intro c _
          simp [isReg_from]
        rw [hx] at this
        rw [this, setNode_link]; simp
      · rw [if_neg hv', setNode_ne _ _ hv']; rfl
    have na : nack net ((s.setNode v x).puts v ((s.node v).delayed.map (fun c => (net.par v, c.from d)))) u w
        = nack net s u w := by
      unfold nack
      rw [puts_link]
      by_cases hp : net.par u = v
      · rw [if_pos hp, List.countP_append]
        have : (outTo ((s.setNode v x).know v) ((s.node v).delayed.map (fun c => (net.par v, c.from d)))
            u).countP (fun p => isAck w p.cmd) = 0 := by
          rw [List.countP_eq_zero]
          intro p hp
          unfold outTo at hp
          obtain ⟨c, hc, e⟩ := List.mem_map.1 hp
          obtain ⟨hc, _⟩ := List.mem_filter.1 hc
          obtain ⟨c0, h0, e0⟩ := List.mem_map.1 hc
          subst e0; subst e
          obtain ⟨_, src, w', g, e1, _⟩ := I.del v c0 h0
          subst e1; simp [isAck, Cmd.from]
        rw [this]; rfl
      · rw [if_neg hp]; rfl
    refine ⟨by rw [nr, na]; exact t.one, fun hh => ?_, fun hh => ?_, fun hh => ?_⟩
    · rw [nr] at hh; unfold VNone Eu; rw [ents, ents]; exact t.reg hh
    · rw [na] at hh; unfold VNone EuNone; rw [ents, ents]; exact t.ack hh
    · unfold VNone; rw [ents]; unfold EuNone at hh; rw [ents] at hh; exact t.wait hh

end Verif.Routes
