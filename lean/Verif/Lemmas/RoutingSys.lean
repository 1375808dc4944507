import Verif.Lemmas.RoutingFlow
/-! The invariants of C55 hold throughout. -/
namespace Verif.Routes

variable {net : Net} {s : Sys}

theorem pick_split {first : Bool} : ∀ {l pre : List Parcel} {p : Parcel} {post : List Parcel},
    pick first l = some (pre, p, post) → l = pre ++ p :: post ∧ (∀ q ∈ pre, q.cmd.prio = false) ∧
    (first = false → pre = []) ∧ (first = true → p.cmd.prio = true) := by
  intro l
  induction l with
  | nil => intro pre p post h; simp [pick] at h
  | cons q l ih =>
    intro pre p post h
    unfold pick at h
    by_cases hq : (!first || q.cmd.prio) = true
    · rw [if_pos hq] at h
      cases h
      refine ⟨rfl, (fun _ h => by cases h), fun _ => rfl, fun hf => ?_⟩
      subst hf; simpa using hq
    · rw [if_neg hq] at h
      cases hr : pick first l with
      | none => rw [hr] at h; cases h
      | some r =>
        obtain ⟨pre', p', post'⟩ := r
        rw [hr] at h
        simp only [Option.map_some, Option.some.injEq, Prod.mk.injEq] at h
        obtain ⟨rfl, rfl, rfl⟩ := h
        obtain ⟨h1, h2, h3, h4⟩ := ih hr
        refine ⟨by rw [h1]; rfl, ?_, ?_, h4⟩
        · intro x hx
          rcases List.mem_cons.1 hx with e | hx
          · subst e
            cases hp : x.cmd.prio with
            | false => rfl
            | true => rw [hp] at hq; simp at hq
          · exact h2 x hx
        · intro hf; subst hf; simp at hq

theorem isOk_prio {d : Id} {c : Cmd} (h : isOk d c = true) : c.prio = true := by
  cases c with
  | ack => rfl
  | reg => cases h
  | pkt => cases h

/-- a command is taken off a link -/
theorem nreg_remove {s1 : Sys} {u v : Node} {pre post : List Parcel} {p : Parcel} (hn : s1.node = s.node)
    (hl : s.link u v = pre ++ p :: post) (hl1 : s1.link u v = pre ++ post)
    (hx : net.par u = v) (w : Who) (hr : isReg w p.cmd = true) : nreg net s u w = nreg net s1 u w + 1 := by
  unfold nreg
  rw [hx, hn, hl, hl1]
  simp only [List.countP_append, List.countP_cons, hr]
  simp; omega

theorem nack_remove {s1 : Sys} {u v : Node} {pre post : List Parcel} {p : Parcel}
    (hl : s.link u v = pre ++ p :: post) (hl1 : s1.link u v = pre ++ post)
    (hx : net.par v = u) (w : Who) (hr : isAck w p.cmd = true) : nack net s v w = nack net s1 v w + 1 := by
  unfold nack
  rw [hx, hl, hl1]
  simp only [List.countP_append, List.countP_cons, hr]
  simp; omega

theorem Inv1.removed (I : Inv1 net s) {s1 : Sys} {u v : Node} {pre post : List Parcel} {p : Parcel}
    (hn : s1.node = s.node) (hl : s.link u v = pre ++ p :: post) (hl1 : s1.link u v = pre ++ post)
    (hs : ∀ a b, (s1.link a b).Sublist (s.link a b)) : MayPut net s1 u v p.cmd := by
  have hm : p ∈ s.link u v := by rw [hl]; exact List.mem_append_right _ (List.mem_cons_self ..)
  have g := I.good u v p hm
  cases hc : p.cmd with
  | pkt => trivial
  | reg src w re gr =>
    rw [hc] at g
    obtain ⟨hch, _⟩ := g
    have t := I.turn u w hch.1
    have e := nreg_remove (net := net) hn hl hl1 hch.2 w (by rw [hc]; simp [isReg])
    have h2 : nack net s1 u w ≤ nack net s u w := List.Sublist.countP_le (hs _ _)
    have one := t.one
    obtain ⟨a, b⟩ := t.reg (by omega)
    refine ⟨by omega, by omega, ?_, ?_⟩
    · rw [VNone.ofNode hn]; exact a
    · rw [Eu.ofNode hn]; exact b
  | ack src d w ok =>
    rw [hc] at g
    obtain ⟨hch, _⟩ := g
    have t := I.turn v w hch.1
    have e := nack_remove (net := net) hl hl1 hch.2 w (by rw [hc]; simp [isAck])
    have h2 : nreg net s1 v w ≤ nreg net s v w := by
      unfold nreg; rw [hn]
      exact Nat.add_le_add_right (List.Sublist.countP_le (hs _ _)) _
    have one := t.one
    obtain ⟨a, b⟩ := t.ack (by omega)
    refine ⟨by omega, by omega, ?_, ?_⟩
    · rw [VNone.ofNode hn]; exact a
    · rw [EuNone.ofNode hn]; exact b

theorem apply_after (s : Sys) (v : Node) (o : Out × Bool) : s.apply v o = after
    { s with
      know := upd s.know v (s.know v ++ fresh o.1.2.1)
      got := s.got ++ o.1.2.2
      stray := s.stray || o.2 } v o.1 := rfl

theorem Inv1.settledTab (I : Inv1 net s) (h : net.Ok) {v c : Node} {d : Id} (hd : d ≠ 0)
    (ht : (s.node v).table d = some c) : Settled net s v d := by
  obtain ⟨w, o, a, t0, tc⟩ := I.tabOwner h hd v c ht
  refine ⟨o, .inr ⟨w, a, t0⟩, fun x hx _ => .inr (I.tabAbove h hd hx ?_)⟩
  rw [ht]; intro e; cases e

/-- what a node learns from a command -/
theorem Inv2.learn (h : net.Ok) (I : Inv1 net s) (J : Inv2 net s) {u v : Node} {pre post : List Parcel} {p : Parcel}
    (hl : s.link u v = pre ++ p :: post) (hpre : ∀ q ∈ pre, q.cmd.prio = false) {s' : Sys} (E : Ext s s')
    (hp : ∀ d, isOk d p.cmd = true → Has s' v d) {d : Id} (hd : d ∈ p.know) : Settled net s' v d := by
  have hm : p ∈ s.link u v := by rw [hl]; exact List.mem_append_right _ (List.mem_cons_self ..)
  have st := J.knowP u v p d hm hd
  have hdir : Child net u v ∨ Child net v u := by
    have g := I.good u v p hm
    cases hc : p.cmd with
    | pkt => rw [hc] at g; exact g.1
    | reg => rw [hc] at g; exact .inr g.1
    | ack => rw [hc] at g; exact .inl g.1
  obtain ⟨o, x, y⟩ := st
  refine ⟨o, E.owner x, fun a h1 h2 => ?_⟩
  rcases hdir with hc | hc
  · rcases h1.cases with e | ⟨_, h1⟩
    · subst e
      have hu := y u .refl (hc.below.trans h2)
      have ht : (s.node u).table d = some a := by
        rcases hu with ⟨f, hf⟩ | hn
        · have e := I.ownerInj h (I.holdsOwner h hf) x
          subst e
          exact absurd (Nat.lt_of_lt_of_le (hc.lt h) (h2.le h)) (Nat.lt_irrefl _)
        · cases ht : (s.node u).table d with
          | none => exact absurd ht hn
          | some c =>
            obtain ⟨hc', b⟩ := I.tabBelow h x ht
            rw [hc'.unique h hc b h2]
      have L := J.led u a hc
      rw [hl] at L
      rcases L.at (d := d) (.inr ⟨hd, ht⟩) (fun q hq => by
        cases hk : isOk d q.cmd with
        | false => rfl
        | true => have := isOk_prio hk; rw [hpre q hq] at this; cases this) with a' | a'
      · exact E.has a'
      · exact hp d a'
    · rw [hc.2] at h1; exact E.has (y a h1 h2)
  · exact E.has (y a (h1.trans hc.below) h2)

theorem onlyOne {net : Net} {x : NodeSt} {v : Node} {c : Cmd} {o : Out} (S : Shape net x v c o) (k : List Id)
    (hdel : ∀ y, y ∈ x.delayed → isAck1 y = false) {t : Node} {d : Id} {y : Node × Cmd} (hy : y ∈ o.2.1)
    (ht : y.1 = t) (hk : isOk d y.2 = true) : outTo k o.2.1 t = [⟨y.2, k⟩] := by
  have one : ∀ z, o.2.1 = [z] → outTo k o.2.1 t = [⟨y.2, k⟩] := by
    intro z hz
    rw [hz, List.mem_singleton] at hy
    subst hy
    rw [hz]
    simp [outTo, ht]
  cases S with
  | nothing h1 => rw [h1] at hy; cases hy
  | down a z h1 => exact one _ h1
  | up z h1 => exact one _ h1
  | keep z h1 => rw [h1] at hy; cases hy
  | release i h1 =>
    rw [h1] at hy
    obtain ⟨z, hz, rfl⟩ := List.mem_map.1 hy
    have := hdel z hz
    cases z with
    | ack => cases this
    | reg => cases hk
    | pkt => cases hk

/-- a registration or answer is dealt with -/
theorem Inv2.treat (h : net.Ok) (I : Inv1 net s) (J : Inv2 net s) {u v : Node} {pre post : List Parcel} {p : Parcel}
    (hl : s.link u v = pre ++ p :: post) (hpre : ∀ q ∈ pre, q.cmd.prio = false) {o : Out} {st : Bool} {s1 : Sys}
    (hn : s1.node = s.node) (hl1 : s1.link = upd s.link u (upd (s.link u) v (pre ++ post)))
    (hk : s1.know = upd s.know v (s.know v ++ p.know ++ fresh o.2.1))
    (hst : s1.stray = (s.stray || st)) (hgot : s1.got = s.got ++ o.2.2)
    (T : Treated net s1 v p.cmd o st) : Inv2 net (after s1 v o) := by
  have E0 : Ext s s1 := Ext.ofNode hn
  have E := E0.trans T.ext
  have hm : p ∈ s.link u v := by rw [hl]; exact List.mem_append_right _ (List.mem_cons_self ..)
  have hdel : ∀ y, y ∈ (s1.node v).delayed → isAck1 y = false := by
    intro y hy
    rw [hn] at hy
    obtain ⟨_, _, _, _, e, _⟩ := I.del v y hy
    subst e; rfl
  have hlink : ∀ a b, (after s1 v o).link a b =
      s1.link a b ++ (if a = v then outTo (s1.know v) o.2.1 b else []) := by
    intro a b
    unfold after
    rw [puts_link]
    by_cases ha : a = v
    · rw [if_pos ha, if_pos ha]; rfl
    · rw [if_neg ha, if_neg ha, List.append_nil]; rfl
  have hkn : (after s1 v o).know = s1.know := puts_know _ _ _
  refine J.step h I T.inv E (fun a b => if a = v then outTo (s1.know v) o.2.1 b else []) ?_ ?_ ?_ ?_ ?_ ?_
  · intro a b
    refine ⟨s1.link a b, hlink a b, ?_⟩
    rw [hl1]
    by_cases ha : a = u
    · subst ha
      rw [upd_same]
      by_cases hb : b = v
      · subst hb
        rw [upd_same]
        exact .inr ⟨pre, p, post, hl, rfl, T.learns⟩
      · rw [upd_ne _ _ hb]; exact .inl rfl
    · rw [upd_ne _ _ ha]; exact .inl rfl
  · intro a b q hq
    by_cases ha : a = v
    · subst ha
      rw [if_pos rfl] at hq
      obtain ⟨y, hy, rfl⟩ := List.mem_map.1 hq
      have hy := (List.mem_filter.1 hy).1
      refine ⟨by rw [hkn], ?_⟩
      intro n d pr b' hcmd
      have := T.quiet y hy
      simp only at hcmd
      rw [hcmd] at this; cases this
    · rw [if_neg ha] at hq; cases hq
  · intro a d c hd ht
    rw [after_node] at ht
    by_cases ha : a = v
    · subst ha
      rw [setNode_same] at ht
      by_cases hs : (s1.node a).table d = some c
      · left; rw [hn] at hs; exact hs
      · right
        obtain ⟨y, hy, e, k⟩ := T.tells d c hd ht hs
        simp only [if_true]
        exact ⟨_, onlyOne T.shape _ hdel hy e k, k⟩
    · rw [setNode_ne _ _ ha, hn] at ht; exact .inl ht
  · intro n d hd
    rw [hkn, hk] at hd
    by_cases ha : n = v
    · subst ha
      rw [upd_same] at hd
      rcases List.mem_append.1 hd with hd | hd
      · rcases List.mem_append.1 hd with hd | hd
        · exact E.settled (J.know n d hd)
        · exact J.learn h I hl hpre E T.learns hd
      · unfold fresh at hd
        obtain ⟨y, hy, hf⟩ := List.mem_filterMap.1 hd
        obtain ⟨t, y⟩ := y
        have hin : (⟨y, s1.know n⟩ : Parcel) ∈ (after s1 n o).link n t := by
          rw [hlink, if_pos rfl]
          refine List.mem_append_right _ (List.mem_map.2 ⟨(t, y), List.mem_filter.2 ⟨hy, by simp⟩, rfl⟩)
        have g := T.inv.good n t _ hin
        cases y with
        | reg => simp at hf
        | pkt => simp at hf
        | ack src d' w ok =>
          cases ok with
          | false => simp at hf
          | true =>
            simp at hf
            subst hf
            obtain ⟨_, _, _, g4, _⟩ := g
            exact T.inv.settledTab h (g4 rfl).1 (g4 rfl).2.2
    · rw [upd_ne _ _ ha] at hd; exact E.settled (J.know n d hd)
  · have e : (after s1 v o).stray = s1.stray := puts_stray _ _ _
    rw [e, hst, J.stray, T.fine]; rfl
  · intro g hg
    have e : (after s1 v o).got = s1.got := puts_got _ _ _
    rw [e, hgot, T.got, List.append_nil] at hg
    exact E.holds (J.got g hg)

/-- a packet is dealt with -/
theorem Inv2.packet (h : net.Ok) (I : Inv1 net s) (J : Inv2 net s) {s1 : Sys} (hn : s1.node = s.node)
    (I1 : Inv1 net s1)
    (hl : ∀ a b, s1.link a b = s.link a b ∨ ∃ pre p post, s.link a b = pre ++ p :: post ∧
      s1.link a b = pre ++ post ∧ ∀ d, isOk d p.cmd = false)
    (hk : ∀ n d, d ∈ s1.know n → Settled net s n d) (hst : s1.stray = false) (hgot : s1.got = s.got)
    {v n : Node} {d : Id} {pr : Bool} {b : Nat} (hd : d ≠ 0) :
    Inv1 net (s1.apply v ((s.node v).onPkt v (net.par v) (net.core v) n d pr b, false)) ∧
    Inv2 net (s1.apply v ((s.node v).onPkt v (net.par v) (net.core v) n d pr b, false)) ∧
    Ext s (s1.apply v ((s.node v).onPkt v (net.par v) (net.core v) n d pr b, false)) := by
  have E1 : Ext s1 s := Ext.ofNode hn.symm
  -- deliver or drop
  have deliver : ∀ gs : List Got, (∀ g ∈ gs, Holds s g.node g.fed g.dest) → Inv1 net (s1.apply v ((s.node v, [], gs), false)) ∧
      Inv2 net (s1.apply v ((s.node v, [], gs), false)) ∧
      Ext s (s1.apply v ((s.node v, [], gs), false)) := by
    intro gs hf
    have hs : s1.apply v ((s.node v, [], gs), false) =
        { s1 with know := upd s1.know v (s1.know v), got := s1.got ++ gs, stray := s1.stray || false } := by
      rw [apply_after, after_nil, ← hn]
      have := setNode_self { s1 with know := upd s1.know v (s1.know v), got := s1.got ++ gs, stray := s1.stray || false } v
      simpa [fresh] using this
    rw [hs]
    have E : Ext s { s1 with know := upd s1.know v (s1.know v), got := s1.got ++ gs, stray := s1.stray || false } :=
      Ext.ofNode hn
    have I' : Inv1 net { s1 with know := upd s1.know v (s1.know v), got := s1.got ++ gs, stray := s1.stray || false } :=
      I1.shrink rfl (fun _ _ => List.Sublist.refl _)
    refine ⟨I', J.step h I I' E (fun _ _ => []) ?_ ?_ ?_ ?_ ?_ ?_, E⟩
    · intro a c
      refine ⟨s1.link a c, (List.append_nil _).symm, ?_⟩
      rcases hl a c with e | ⟨pre, p, post, e1, e2, e3⟩
      · exact .inl e
      · exact .inr ⟨pre, p, post, e1, e2, fun d hd => by rw [e3] at hd; cases hd⟩
    · intro a c q hq; cases hq
    · intro a d' c _ ht
      left
      have ht : (s1.node a).table d' = some c := ht
      rw [hn] at ht; exact ht
    · intro m d' hd'
      have : d' ∈ s1.know m := by
        have hd' : d' ∈ upd s1.know v (s1.know v) m := hd'
        by_cases e : m = v
        · subst e; rw [upd_same] at hd'; exact hd'
        · rw [upd_ne _ _ e] at hd'; exact hd'
      exact E.settled (hk m d' this)
    · show (s1.stray || false) = false
      rw [hst]; rfl
    · intro g hg
      have hg : g ∈ s1.got ++ gs := hg
      rw [hgot] at hg
      rcases List.mem_append.1 hg with hg | hg
      · exact E.holds (J.got g hg)
      · exact E.holds (hf g hg)
  -- pass on
  have pass : ∀ c, (Child net v c ∨ Child net c v) → (Child net v c → (s.node v).table d = some c) →
      Inv1 net (s1.apply v ((s.node v, [(c, .pkt n d pr b)], []), false)) ∧
      Inv2 net (s1.apply v ((s.node v, [(c, .pkt n d pr b)], []), false)) ∧
      Ext s (s1.apply v ((s.node v, [(c, .pkt n d pr b)], []), false)) := by
    intro c hc ht
    obtain ⟨s2, hs2⟩ : ∃ s2 : Sys, s2 = { s1 with know := upd s1.know v (s1.know v), got := s1.got ++ [], stray := s1.stray || false } :=
      ⟨_, rfl⟩
    have hs : s1.apply v ((s.node v, [(c, .pkt n d pr b)], []), false) = s2.put v c (.pkt n d pr b) := by
      rw [apply_after, after_one, ← hn]
      have := setNode_self s2 v
      rw [hs2] at this ⊢
      simp only [fresh, List.filterMap_cons, List.filterMap_nil, List.append_nil] at this ⊢
      rw [this]
    rw [hs]
    have hn2 : s2.node = s.node := by rw [hs2]; exact hn
    have hlk2 : s2.link = s1.link := by rw [hs2]
    have I2 : Inv1 net s2 := I1.shrink (by rw [hs2]) (fun _ _ => by rw [hlk2]; exact List.Sublist.refl _)
    have I' : Inv1 net (s2.put v c (.pkt n d pr b)) := I2.put ⟨hc, hd⟩ trivial
    have E : Ext s (s2.put v c (.pkt n d pr b)) := Ext.ofNode hn2
    have hkn : (s2.put v c (.pkt n d pr b)).know = s2.know := rfl
    refine ⟨I', J.step h I I' E (fun x y => if x = v ∧ y = c then [⟨.pkt n d pr b, s2.know v⟩] else []) ?_ ?_ ?_ ?_ ?_ ?_, E⟩
    · intro a e
      refine ⟨s1.link a e, ?_, ?_⟩
      · rw [put_link, hlk2]
        by_cases hh : a = v ∧ e = c
        · rw [if_pos hh, if_pos hh]
        · rw [if_neg hh, if_neg hh, List.append_nil]
      · rcases hl a e with e | ⟨pre, p, post, e1, e2, e3⟩
        · exact .inl e
        · exact .inr ⟨pre, p, post, e1, e2, fun d hd => by rw [e3] at hd; cases hd⟩
    · intro a e q hq
      by_cases hh : a = v ∧ e = c
      · rw [if_pos hh, List.mem_singleton] at hq
        subst hq
        obtain ⟨rfl, rfl⟩ := hh
        refine ⟨by rw [hkn], ?_⟩
        intro n' d' pr' b' hcmd
        cases hcmd
        exact ⟨hd, ht⟩
      · rw [if_neg hh] at hq; cases hq
    · intro a d' c' _ ht'
      left
      have ht' : (s2.node a).table d' = some c' := ht'
      rw [hn2] at ht'; exact ht'
    · intro m d' hd'
      have : d' ∈ s1.know m := by
        rw [hkn, hs2] at hd'
        have hd' : d' ∈ upd s1.know v (s1.know v) m := hd'
        by_cases e : m = v
        · subst e; rw [upd_same] at hd'; exact hd'
        · rw [upd_ne _ _ e] at hd'; exact hd'
      exact E.settled (hk m d' this)
    · show s2.stray = false
      rw [hs2]; show (s1.stray || false) = false
      rw [hst]; rfl
    · intro g hg
      have hg : g ∈ s2.got := hg
      rw [hs2] at hg
      have hg : g ∈ s1.got ++ [] := hg
      rw [hgot, List.append_nil] at hg
      exact E.holds (J.got g hg)
  by_cases hh : Has s v d
  · rcases I.routeHas h (src := n) (pr := pr) (b := b) hh hd with ⟨f, hf, e⟩ | ⟨c, ht, hc, e⟩
    · rw [e]
      refine deliver _ (fun g hg => ?_)
      rw [List.mem_singleton] at hg; subst hg; exact hf
    · rw [e]; exact pass c (.inl hc) (fun _ => ht)
  · rw [I.routeUnknown h (src := n) (pr := pr) (b := b) hh]
    by_cases hv : v = 0
    · rw [if_pos hv]; exact deliver [] (fun g hg => by cases hg)
    · rw [if_neg hv]
      exact pass _ (.inr ⟨hv, rfl⟩) (fun hc => absurd hc (Child.asymm h ⟨hv, rfl⟩))

/-- a node announces something about itself -/
theorem Inv2.announce (h : net.Ok) (I : Inv1 net s) (J : Inv2 net s) {v : Node} {x : NodeSt} {w : Who}
    (hv : v ≠ 0) (hid : x.id = (s.node v).id)
    (hup : x.up = (s.node v).up) (hents : x.ents = (s.node v).ents) (htab : x.table = (s.node v).table)
    (hdl : x.delayed = (s.node v).delayed)
    (E : Ext s (s.setNode v x))
    (hk : ∀ l l', l ∈ x.feds → l' ∈ x.feds → l.name = l'.name → l = l')
    (hr : ∀ l, l ∈ x.feds → net.core v = true ∧ l.reent = false)
    (ho : ∀ l i, l ∈ x.feds → l.id = some i → Assigned s (.fed l.name) i ∧ (s.node (net.par v)).table i = some v)
    {src : Option Id} {g : Nat} (hnew : ¬ VHas net s v w) (horg : Org net (s.setNode v x) w v)
    (hsrc : ∀ i, src = some i → (s.node v).id = some i) (hnone : src = none → w = .brk v) :
    Inv1 net ((s.setNode v x).put v (net.par v) (.reg src w false g)) ∧
    Inv2 net ((s.setNode v x).put v (net.par v) (.reg src w false g)) ∧
    Ext s ((s.setNode v x).put v (net.par v) (.reg src w false g)) := by
  obtain ⟨i1, i2, i3⟩ := I.idle hnew
  have hpv : net.par v ≠ v := Nat.ne_of_lt (h.below v hv)
  have I1 : Inv1 net (s.setNode v x) := by
    refine I.soft hid hup hents htab E hk hr ho ?_ ?_
    · intro c hc
      rw [hdl] at hc
      obtain ⟨h1, a, b, g, e, o, t⟩ := I.del v c hc
      exact ⟨h1, a, b, g, e, o, E.trail t⟩
    · intro w _; exact .inl (Nat.le_of_eq (nreg_setNode hdl v w))
  have tr : Trail net (s.setNode v x) w v v :=
    ⟨.refl, horg, fun a h1 h2 h3 => absurd (h2.antisymm h h1) h3⟩
  have I2 : Inv1 net ((s.setNode v x).put v (net.par v) (.reg src w false g)) := by
    refine I1.put ⟨⟨hv, rfl⟩, ⟨v, tr⟩, ?_, hnone, rfl⟩ ⟨?_, i2, ?_, ?_⟩
    · intro i hi; rw [setNode_same, hid]; exact hsrc i hi
    · exact (nreg_setNode hdl v w).trans i1
    · intro e he hw
      rw [setNode_same, hents] at he
      exact absurd (.inr ⟨e, he, hw⟩) hnew
    · unfold Eu; rw [setNode_ne _ _ hpv]; exact i3
  have E2 : Ext s ((s.setNode v x).put v (net.par v) (.reg src w false g)) := E.trans (Ext.ofNode rfl)
  refine ⟨I2, J.step h I I2 E2
    (fun a b => if a = v ∧ b = net.par v then [⟨.reg src w false g, s.know v⟩] else []) ?_ ?_ ?_ ?_ ?_ ?_, E2⟩
  · intro a b
    refine ⟨s.link a b, ?_, .inl rfl⟩
    rw [put_link]
    by_cases hh : a = v ∧ b = net.par v
    · rw [if_pos hh, if_pos hh]; rfl
    · rw [if_neg hh, if_neg hh, List.append_nil]; rfl
  · intro a b q hq
    by_cases hh : a = v ∧ b = net.par v
    · rw [if_pos hh, List.mem_singleton] at hq
      subst hq
      obtain ⟨rfl, rfl⟩ := hh
      exact ⟨rfl, fun n d pr b hcmd => by cases hcmd⟩
    · rw [if_neg hh] at hq; cases hq
  · intro a d c _ ht
    left
    rw [put_node] at ht
    by_cases ha : a = v
    · subst ha; rw [setNode_same, htab] at ht; exact ht
    · rw [setNode_ne _ _ ha] at ht; exact ht
  · intro m d hd; exact E2.settled (J.know m d hd)
  · exact J.stray
  · intro g hg; exact E2.holds (J.got g hg)

/-- a federate ends -/
theorem Inv2.ends (h : net.Ok) (I : Inv1 net s) (J : Inv2 net s) {v : Node} {x : NodeSt}
    (hid : x.id = (s.node v).id)
    (hup : x.up = (s.node v).up) (hents : x.ents = (s.node v).ents) (htab : x.table = (s.node v).table)
    (hdl : x.delayed = (s.node v).delayed)
    (E : Ext s (s.setNode v x))
    (hk : ∀ l l', l ∈ x.feds → l' ∈ x.feds → l.name = l'.name → l = l')
    (hr : ∀ l, l ∈ x.feds → net.core v = true ∧ l.reent = false)
    (ho : ∀ l i, l ∈ x.feds → l.id = some i → Assigned s (.fed l.name) i ∧ (s.node (net.par v)).table i = some v) :
    Inv1 net (s.setNode v x) ∧ Inv2 net (s.setNode v x) := by
  have I1 : Inv1 net (s.setNode v x) := by
    refine I.soft hid hup hents htab E hk hr ho ?_ ?_
    · intro c hc
      rw [hdl] at hc
      obtain ⟨h1, a, b, g, e, o, t⟩ := I.del v c hc
      exact ⟨h1, a, b, g, e, o, E.trail t⟩
    · intro w _; exact .inl (Nat.le_of_eq (nreg_setNode hdl v w))
  refine ⟨I1, J.step h I I1 E (fun _ _ => []) ?_ ?_ ?_ ?_ ?_ ?_⟩
  · intro a b; exact ⟨s.link a b, (List.append_nil _).symm, .inl rfl⟩
  · intro a b q hq; cases hq
  · intro a d c _ ht
    left
    by_cases ha : a = v
    · subst ha; rw [setNode_same, htab] at ht; exact ht
    · rw [setNode_ne _ _ ha] at ht; exact ht
  · intro m d hd; exact E.settled (J.know m d hd)
  · exact J.stray
  · intro g hg; exact E.holds (J.got g hg)

end Verif.Routes
