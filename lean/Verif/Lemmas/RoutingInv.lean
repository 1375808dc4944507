import Verif.Lemmas.RoutingTree
/-! The invariant of the registration protocol, for C55. -/
namespace Verif.Routes

variable {net : Net}

/-- `w` registers at `o` -/
def Org (net : Net) (s : Sys) (w : Who) (o : Node) : Prop :=
  match w with
  | .brk n => n = o ∧ (s.node o).asked = true
  | .fed nm => net.core o = true ∧ ∃ l ∈ (s.node o).feds, l.name = nm

/-- `w` registers at `o`, below `u`, and every broker from `u` down to `o` has an entry for it that
leads to `o` -/
def Trail (net : Net) (s : Sys) (w : Who) (o u : Node) : Prop :=
  Below net u o ∧ Org net s w o ∧
  ∀ a, Below net u a → Below net a o → a ≠ o → ∃ e ∈ (s.node a).ents, e.who = w ∧ Below net e.route o

/-- the root has given `i` to `w` -/
def Assigned (s : Sys) (w : Who) (i : Id) : Prop := ∃ e ∈ (s.node 0).ents, e.who = w ∧ e.id = some i

def isReg (w : Who) : Cmd → Bool
  | .reg _ w' _ _ => decide (w' = w)
  | _ => false
def isAck (w : Who) : Cmd → Bool
  | .ack _ _ w' _ => decide (w' = w)
  | _ => false

/-- the registrations of `w` on the way from `v` to the node above it, or waiting in `v` -/
def nreg (net : Net) (s : Sys) (v : Node) (w : Who) : Nat :=
  (s.link v (net.par v)).countP (fun p => isReg w p.cmd) + (s.node v).delayed.countP (isReg w)
/-- the answers for `w` on the way to `v` from the node above it -/
def nack (net : Net) (s : Sys) (v : Node) (w : Who) : Nat :=
  (s.link (net.par v) v).countP (fun p => isAck w p.cmd)

/-- the entry for `w` in `v`, if any, has no answer yet -/
def VNone (s : Sys) (v : Node) (w : Who) : Prop := ∀ e ∈ (s.node v).ents, e.who = w → e.id = none
/-- `v` has something to do with `w` -/
def VHas (net : Net) (s : Sys) (v : Node) (w : Who) : Prop :=
  Org net s w v ∨ ∃ e ∈ (s.node v).ents, e.who = w
/-- the node above `v` has an entry for `w` that leads to `v` -/
def Eu (net : Net) (s : Sys) (v : Node) (w : Who) : Prop :=
  ∃ e ∈ (s.node (net.par v)).ents, e.who = w ∧ e.route = v
def EuNone (net : Net) (s : Sys) (v : Node) (w : Who) : Prop :=
  ∃ e ∈ (s.node (net.par v)).ents, e.who = w ∧ e.route = v ∧ e.id = none

/-- one thing at a time between `v` and the node above it -/
structure Turn (net : Net) (s : Sys) (v : Node) (w : Who) : Prop where
  one : nreg net s v w + nack net s v w ≤ 1
  reg : 0 < nreg net s v w → VNone s v w ∧ ¬ Eu net s v w
  ack : 0 < nack net s v w → VNone s v w ∧ ¬ EuNone net s v w
  wait : EuNone net s v w → VNone s v w

def GoodReg (net : Net) (s : Sys) (u v : Node) (src : Option Id) (w : Who) (re : Bool) : Prop :=
  Child net v u ∧ (∃ o, Trail net s w o u) ∧ (∀ i, src = some i → (s.node u).id = some i) ∧
  (src = none → w = .brk u) ∧ re = false

def GoodAck (net : Net) (s : Sys) (u v : Node) (src : Option Id) (d : Id) (w : Who) (ok : Bool) : Prop :=
  Child net u v ∧ (∃ o, Trail net s w o v) ∧
  (∀ n, w = .brk n → ∀ i, src = some i → (s.node u).id = some i) ∧
  (ok = true → d ≠ 0 ∧ Assigned s w d ∧ (s.node u).table d = some v) ∧ (ok = false → d = 0)

def Good (net : Net) (s : Sys) (u v : Node) : Cmd → Prop
  | .reg src w re _ => GoodReg net s u v src w re
  | .ack src d w ok => GoodAck net s u v src d w ok
  | .pkt _ d _ _ => (Child net u v ∨ Child net v u) ∧ d ≠ 0

def idRange (x : NodeSt) (w : Who) (i : Id) : Prop :=
  match w with
  | .brk _ => brkShift ≤ i ∧ i < brkShift + x.count false
  | .fed _ => fedShift ≤ i ∧ i < brkShift ∧ (i - fedShift) % block < x.count true

structure Inv1 (net : Net) (s : Sys) : Prop where
  keys : ∀ u e e', e ∈ (s.node u).ents → e' ∈ (s.node u).ents → e.who = e'.who → e = e'
  noRe : ∀ u e, e ∈ (s.node u).ents → e.reent = false
  fedKeys : ∀ u l l', l ∈ (s.node u).feds → l' ∈ (s.node u).feds → l.name = l'.name → l = l'
  fedRe : ∀ u l, l ∈ (s.node u).feds → net.core u = true ∧ l.reent = false
  rootId : (s.node 0).id = some rootId ∧ (s.node 0).up = none
  ent : ∀ u e, e ∈ (s.node u).ents → Child net u e.route ∧ ∃ o, Trail net s e.who o e.route
  entId : ∀ u e i, e ∈ (s.node u).ents → e.id = some i → i ≠ 0 →
    Assigned s e.who i ∧ (s.node u).table i = some e.route
  rootIds : ∀ e, e ∈ (s.node 0).ents → ∃ i, e.id = some i ∧ idRange (s.node 0) e.who i
  uniq : ∀ e e' i, e ∈ (s.node 0).ents → e' ∈ (s.node 0).ents → e.id = some i → e'.id = some i →
    e.who = e'.who
  tab : ∀ u i c, (s.node u).table i = some c → i ≠ 0 → ∃ e ∈ (s.node u).ents, e.id = some i ∧ e.route = c
  tabUp : ∀ u i c, u ≠ 0 → (s.node u).table i = some c → i ≠ 0 → (s.node (net.par u)).table i = some u
  own : ∀ u i, u ≠ 0 → (s.node u).id = some i →
    Assigned s (.brk u) i ∧ (s.node (net.par u)).table i = some u
  ownFed : ∀ u l i, l ∈ (s.node u).feds → l.id = some i →
    Assigned s (.fed l.name) i ∧ (s.node (net.par u)).table i = some u
  up : ∀ u i, u ≠ 0 → (s.node u).up = some i → (s.node (net.par u)).id = some i
  good : ∀ u v p, p ∈ s.link u v → Good net s u v p.cmd
  del : ∀ u c, c ∈ (s.node u).delayed → u ≠ 0 ∧ ∃ src w g, c = .reg src w false g ∧ ∃ o, Trail net s w o u
  turn : ∀ v w, v ≠ 0 → Turn net s v w

theorem Trail.has {s : Sys} {w : Who} {o v : Node} (t : Trail net s w o v) : VHas net s v w := by
  by_cases e : v = o
  · subst e; exact .inl t.2.1
  · obtain ⟨x, hx, hw, _⟩ := t.2.2 v .refl t.1 e
    exact .inr ⟨x, hx, hw⟩

theorem Trail.down {s : Sys} {w : Who} {o u v : Node} (t : Trail net s w o u) (h : Below net u v)
    (b : Below net v o) : Trail net s w o v :=
  ⟨b, t.2.1, fun a h1 h2 h3 => t.2.2 a (h.trans h1) h2 h3⟩

theorem Trail.ext {s : Sys} {w : Who} {o v c : Node} (h : net.Ok) (t : Trail net s w o c)
    (hc : Child net v c) (e : Ent) (he : e ∈ (s.node v).ents) (hw : e.who = w) (hr : e.route = c) :
    Trail net s w o v := by
  refine ⟨hc.below.trans t.1, t.2.1, fun a h1 h2 h3 => ?_⟩
  rcases h2.linear t.1 with b | b
  · rcases b.cases with e' | ⟨_, b⟩
    · subst e'; exact t.2.2 a .refl h2 h3
    · rw [hc.2] at b
      have := h1.antisymm h b; subst this
      exact ⟨e, he, hw, hr ▸ t.1⟩
  · exact t.2.2 a b h2 h3

theorem Trail.brk {s : Sys} {n o v : Node} (t : Trail net s (.brk n) o v) : n = o := t.2.1.1

/-- `s'` knows at least as much as `s` -/
structure Ext (s s' : Sys) : Prop where
  ents : ∀ u e, e ∈ (s.node u).ents → ∃ e' ∈ (s'.node u).ents, e'.who = e.who ∧ e'.route = e.route ∧
    ∀ i, e.id = some i → e'.id = some i
  id : ∀ u i, (s.node u).id = some i → (s'.node u).id = some i
  table : ∀ u i c, (s.node u).table i = some c → (s'.node u).table i = some c
  asked : ∀ u, (s.node u).asked = true → (s'.node u).asked = true
  feds : ∀ u l, l ∈ (s.node u).feds → ∃ l' ∈ (s'.node u).feds, l'.name = l.name ∧
    ∀ i, l.id = some i → l'.id = some i

theorem Ext.org {s s' : Sys} (x : Ext s s') {w : Who} {o : Node} (h : Org net s w o) : Org net s' w o := by
  cases w with
  | brk n => exact ⟨h.1, x.asked _ h.2⟩
  | fed nm =>
    obtain ⟨hc, l, hl, hn⟩ := h
    obtain ⟨l', hl', hn', _⟩ := x.feds _ l hl
    exact ⟨hc, l', hl', hn'.trans hn⟩

theorem Ext.trail {s s' : Sys} (x : Ext s s') {w : Who} {o u : Node} (h : Trail net s w o u) :
    Trail net s' w o u := by
  refine ⟨h.1, x.org h.2.1, fun a h1 h2 h3 => ?_⟩
  obtain ⟨e, he, hw, hr⟩ := h.2.2 a h1 h2 h3
  obtain ⟨e', he', hw', hr', _⟩ := x.ents a e he
  exact ⟨e', he', hw'.trans hw, hr' ▸ hr⟩

theorem Ext.assigned {s s' : Sys} (x : Ext s s') {w : Who} {i : Id} (h : Assigned s w i) :
    Assigned s' w i := by
  obtain ⟨e, he, hw, hi⟩ := h
  obtain ⟨e', he', hw', _, hi'⟩ := x.ents 0 e he
  exact ⟨e', he', hw'.trans hw, hi' i hi⟩

theorem Ext.good {s s' : Sys} (x : Ext s s') {u v : Node} {c : Cmd} (h : Good net s u v c) :
    Good net s' u v c := by
  cases c with
  | reg src w re g =>
    obtain ⟨h1, ⟨o, h2⟩, h3, h4, h5⟩ := h
    exact ⟨h1, ⟨o, x.trail h2⟩, fun i hi => x.id _ _ (h3 i hi), h4, h5⟩
  | ack src d w ok =>
    obtain ⟨h1, ⟨o, h2⟩, h3, h4, h5⟩ := h
    exact ⟨h1, ⟨o, x.trail h2⟩, fun n hn i hi => x.id _ _ (h3 n hn i hi),
      fun h => ⟨(h4 h).1, x.assigned (h4 h).2.1, x.table _ _ _ (h4 h).2.2⟩, h5⟩
  | pkt => exact h

theorem Ext.refl (s : Sys) : Ext s s :=
  ⟨fun _ e he => ⟨e, he, rfl, rfl, fun _ h => h⟩, fun _ _ h => h, fun _ _ _ h => h, fun _ h => h,
   fun _ l hl => ⟨l, hl, rfl, fun _ h => h⟩⟩

theorem Ext.trans {a b c : Sys} (x : Ext a b) (y : Ext b c) : Ext a c := by
  refine ⟨fun u e he => ?_, fun u i h => y.id _ _ (x.id _ _ h), fun u i c h => y.table _ _ _ (x.table _ _ _ h),
    fun u h => y.asked _ (x.asked _ h), fun u l hl => ?_⟩
  · obtain ⟨e', he', h1, h2, h3⟩ := x.ents u e he
    obtain ⟨e'', he'', h4, h5, h6⟩ := y.ents u e' he'
    exact ⟨e'', he'', h4.trans h1, h5.trans h2, fun i h => h6 i (h3 i h)⟩
  · obtain ⟨l', hl', h1, h2⟩ := x.feds u l hl
    obtain ⟨l'', hl'', h3, h4⟩ := y.feds u l' hl'
    exact ⟨l'', hl'', h3.trans h1, fun i h => h4 i (h2 i h)⟩

/-- same nodes: same knowledge -/
theorem Ext.ofNode {s s' : Sys} (h : s'.node = s.node) : Ext s s' := by
  obtain ⟨n, l, k, a, g, t⟩ := s
  obtain ⟨n', l', k', a', g', t'⟩ := s'
  cases h
  exact ⟨fun _ e he => ⟨e, he, rfl, rfl, fun _ h => h⟩, fun _ _ h => h, fun _ _ _ h => h, fun _ h => h,
   fun _ l hl => ⟨l, hl, rfl, fun _ h => h⟩⟩

theorem countP_pos_mem {α : Type} {p : α → Bool} {l : List α} (h : 0 < l.countP p) :
    ∃ x ∈ l, p x = true := List.countP_pos_iff.1 h

section
variable {s : Sys} (I : Inv1 net s)
include I

/-- a node that has nothing to do with `w` has no part in its registration -/
theorem Inv1.idle {v : Node} {w : Who} (h : ¬ VHas net s v w) :
    nreg net s v w = 0 ∧ nack net s v w = 0 ∧ ¬ Eu net s v w := by
  refine ⟨Nat.eq_zero_of_not_pos fun hp => h ?_, Nat.eq_zero_of_not_pos fun hp => h ?_, ?_⟩
  · have : 0 < (s.link v (net.par v)).countP (fun p => isReg w p.cmd) ∨
      0 < (s.node v).delayed.countP (isReg w) := by
      unfold nreg at hp; omega
    rcases this with hq | hq
    · obtain ⟨p, hm, hc⟩ := countP_pos_mem hq
      have g := I.good _ _ p hm
      cases hcmd : p.cmd with
      | reg src w' re gr =>
        rw [hcmd] at g hc
        have : w' = w := by simpa [isReg] using hc
        subst this
        exact g.2.1.elim fun o t => t.has
      | ack => rw [hcmd] at hc; simp [isReg] at hc
      | pkt => rw [hcmd] at hc; simp [isReg] at hc
    · obtain ⟨c, hm, hc⟩ := countP_pos_mem hq
      obtain ⟨_, src, w', g, e, o, t⟩ := I.del v c hm
      subst e
      have : w' = w := by simpa [isReg] using hc
      subst this
      exact t.has
  · obtain ⟨p, hm, hc⟩ := countP_pos_mem hp
    have g := I.good _ _ p hm
    cases hcmd : p.cmd with
    | ack src d w' ok =>
      rw [hcmd] at g hc
      have : w' = w := by simpa [isAck] using hc
      subst this
      exact g.2.1.elim fun o t => t.has
    | reg => rw [hcmd] at hc; simp [isAck] at hc
    | pkt => rw [hcmd] at hc; simp [isAck] at hc
  · rintro ⟨e, he, hw, hr⟩
    obtain ⟨_, o, t⟩ := I.ent _ e he
    rw [hw, hr] at t
    exact h t.has

theorem Inv1.range {w : Who} {i : Id} (h : Assigned s w i) : idRange (s.node 0) w i := by
  obtain ⟨e, he, hw, hi⟩ := h
  obtain ⟨j, hj, hr⟩ := I.rootIds e he
  rw [hi] at hj; cases hj
  rw [← hw]; exact hr

theorem Inv1.big {w : Who} {i : Id} (h : Assigned s w i) : 131072 ≤ i := by
  have := I.range h
  cases w with
  | brk => have := this.1; unfold brkShift at this; omega
  | fed => have := this.1; unfold fedShift at this; omega

theorem Inv1.sole {w w' : Who} {i : Id} (h : Assigned s w i) (h' : Assigned s w' i) : w = w' := by
  obtain ⟨e, he, hw, hi⟩ := h
  obtain ⟨e', he', hw', hi'⟩ := h'
  rw [← hw, ← hw']; exact I.uniq e e' i he he' hi hi'

theorem Inv1.idInj {a b : Node} {i : Id} (ha : (s.node a).id = some i) (hb : (s.node b).id = some i) :
    a = b := by
  by_cases h1 : a = 0
  · by_cases h2 : b = 0
    · rw [h1, h2]
    · subst h1
      rw [I.rootId.1] at ha; cases ha
      have := I.big (I.own b _ h2 hb).1
      unfold Routes.rootId at this; omega
  · by_cases h2 : b = 0
    · subst h2
      rw [I.rootId.1] at hb; cases hb
      have := I.big (I.own a _ h1 ha).1
      unfold Routes.rootId at this; omega
    · have := I.sole (I.own a i h1 ha).1 (I.own b i h2 hb).1
      cases this; rfl

/-- an entry's own table line -/
theorem Inv1.tabEnt {u c : Node} {i : Id} (h : (s.node u).table i = some c) (hi : i ≠ 0) :
    ∃ w o, Assigned s w i ∧ Trail net s w o c ∧ Child net u c ∧ ∃ e ∈ (s.node u).ents, e.who = w ∧ e.route = c := by
  obtain ⟨e, he, hid, hr⟩ := I.tab u i c h hi
  obtain ⟨hc, o, t⟩ := I.ent u e he
  rw [hr] at hc t
  exact ⟨e.who, o, (I.entId u e i he hid hi).1, t, hc, e, he, rfl, hr⟩

/-- a node's own identifier is not in its table -/
theorem Inv1.ownTab (h : net.Ok) {u : Node} {i : Id} (hid : (s.node u).id = some i) :
    (s.node u).table i = none := by
  have h0 : i ≠ 0 := by
    by_cases h1 : u = 0
    · subst h1; rw [I.rootId.1] at hid; cases hid; unfold Routes.rootId; omega
    · have := I.big (I.own u i h1 hid).1; omega
  cases ht : (s.node u).table i with
  | none => rfl
  | some c =>
    obtain ⟨w, o, ha, t, hc, _⟩ := I.tabEnt ht h0
    by_cases h1 : u = 0
    · subst h1; rw [I.rootId.1] at hid; cases hid
      have := I.big ha; unfold Routes.rootId at this; omega
    · have := I.sole ha (I.own u i h1 hid).1
      subst this
      have hb := t.1
      rw [← t.brk] at hb
      exact absurd (Nat.lt_of_lt_of_le (hc.lt h) (hb.le h)) (Nat.lt_irrefl _)

/-- the way back to a registered child -/
theorem Inv1.routeBack (h : net.Ok) {u v : Node} {i : Id} (hc : Child net v u)
    (hid : (s.node u).id = some i) : (s.node v).getRoute (net.par v) i = u := by
  have o := I.own u i hc.1 hid
  have h0 : i ≠ 0 := by have := I.big o.1; omega
  have ht := o.2
  rw [hc.2] at ht
  have hu : (s.node v).up ≠ some i := by
    intro hu
    by_cases hv : v = 0
    · subst hv; rw [I.rootId.2] at hu; cases hu
    · have := I.idInj (I.up v i hv hu) hid
      have h1 := hc.lt h
      have h2 := h.below v hv
      rw [this] at h2
      exact absurd (Nat.lt_trans h1 h2) (Nat.lt_irrefl _)
  unfold NodeSt.getRoute
  rw [if_neg (by unfold parentId; intro hx; exact hx.elim h0 hu), ht]
  rfl

/-- two registrations of one name that both have a trail from the root are the same -/
theorem Inv1.trailInj (h : net.Ok) {w : Who} {o o' u : Node} (t : Trail net s w o u)
    (t' : Trail net s w o' u) : o = o' := by
  cases w with
  | brk n => exact t.brk.symm.trans t'.brk
  | fed nm =>
    have key : ∀ a, Below net u a → Below net a o → Below net a o' := by
      intro a h1 h2
      induction h1 with
      | refl => exact t'.1
      | @step a ha h1 ih =>
        have hb := h2.par ha
        have hpo : net.par a ≠ o := by
          intro e
          have h3 := h2.le h; have h4 := h.below a ha; omega
        have hb' := ih hb
        have hpo' : net.par a ≠ o' := by
          intro e
          have := h.leaf a (by assumption)
          rw [e, t'.2.1.1] at this; cases this
        obtain ⟨e, he, hw, hr⟩ := t.2.2 _ h1 hb hpo
        obtain ⟨e', he', hw', hr'⟩ := t'.2.2 _ h1 hb' hpo'
        have := I.keys _ e e' he he' (hw.trans hw'.symm)
        subst this
        have hc := (I.ent _ e he).1
        have := hc.unique h ⟨by assumption, rfl⟩ hr h2
        rw [this] at hr'; exact hr'
    have := key o t.1 .refl
    exact this.ofCore h t.2.1.1
end

end Verif.Routes
