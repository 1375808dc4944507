import Verif.Lemmas.RoutingInv
/-! The invariant of the registration protocol through each small change, for C55. -/
namespace Verif.Routes

variable {net : Net} {s : Sys}

theorem upd_same {α : Type} (f : Node → α) (a : Node) (x : α) : upd f a x a = x := by simp [upd]
theorem upd_ne {α : Type} (f : Node → α) {a b : Node} (x : α) (h : b ≠ a) : upd f a x b = f b := by
  simp [upd, h]

theorem Inv1.relink (I : Inv1 net s) {s' : Sys} (hn : s'.node = s.node)
    (hg : ∀ u v p, p ∈ s'.link u v → Good net s u v p.cmd)
    (ht : ∀ v w, v ≠ 0 → Turn net s' v w) : Inv1 net s' := by
  have x := Ext.ofNode hn
  obtain ⟨n, l, k, a, g, t⟩ := s
  obtain ⟨n', l', k', a', g', t'⟩ := s'
  cases hn
  exact ⟨I.keys, I.noRe, I.fedKeys, I.fedRe, I.rootId, I.ent, I.entId, I.rootIds, I.uniq, I.tab,
    I.tabUp, I.own, I.ownFed, I.up, fun u v p h => x.good (hg u v p h), I.del, ht⟩

theorem VNone.ofNode {s s' : Sys} (hn : s'.node = s.node) {v : Node} {w : Who} :
    VNone s' v w ↔ VNone s v w := by unfold VNone; rw [hn]
theorem Eu.ofNode {s s' : Sys} (hn : s'.node = s.node) {v : Node} {w : Who} :
    Eu net s' v w ↔ Eu net s v w := by unfold Eu; rw [hn]
theorem EuNone.ofNode {s s' : Sys} (hn : s'.node = s.node) {v : Node} {w : Who} :
    EuNone net s' v w ↔ EuNone net s v w := by unfold EuNone; rw [hn]

/-- commands may get lost -/
theorem Inv1.shrink (I : Inv1 net s) {s' : Sys} (hn : s'.node = s.node)
    (hl : ∀ u v, (s'.link u v).Sublist (s.link u v)) : Inv1 net s' := by
  refine I.relink hn (fun u v p h => I.good u v p ((hl u v).subset h)) fun v w hv => ?_
  have t := I.turn v w hv
  have h1 : nreg net s' v w ≤ nreg net s v w := by
    unfold nreg; rw [hn]
    exact Nat.add_le_add_right (List.Sublist.countP_le (hl _ _)) _
  have h2 : nack net s' v w ≤ nack net s v w := List.Sublist.countP_le (hl _ _)
  refine ⟨by have := t.one; omega, fun h => ?_, fun h => ?_, fun h => ?_⟩
  · rw [VNone.ofNode hn, Eu.ofNode hn]; exact t.reg (by omega)
  · rw [VNone.ofNode hn, EuNone.ofNode hn]; exact t.ack (by omega)
  · rw [VNone.ofNode hn]; rw [EuNone.ofNode hn] at h; exact t.wait h

theorem put_link (s : Sys) (u v : Node) (c : Cmd) (a b : Node) :
    (s.put u v c).link a b = if a = u ∧ b = v then s.link a b ++ [⟨c, s.know u⟩] else s.link a b := by
  unfold Sys.put upd
  by_cases h : a = u
  · subst h
    by_cases h' : b = v
    · subst h'; simp
    · simp [h']
  · simp [h]

theorem put_node (s : Sys) (u v : Node) (c : Cmd) : (s.put u v c).node = s.node := rfl

/-- what must be true of the link for a command to be put on it -/
def MayPut (net : Net) (s : Sys) (u v : Node) : Cmd → Prop
  | .reg _ w _ _ => nreg net s u w = 0 ∧ nack net s u w = 0 ∧ VNone s u w ∧ ¬ Eu net s u w
  | .ack _ _ w _ => nreg net s v w = 0 ∧ nack net s v w = 0 ∧ VNone s v w ∧ ¬ EuNone net s v w
  | .pkt .. => True

theorem nreg_put (s : Sys) (u v : Node) (c : Cmd) (x : Node) (w : Who) :
    nreg net (s.put u v c) x w =
      nreg net s x w + (if x = u ∧ net.par x = v ∧ isReg w c = true then 1 else 0) := by
  unfold nreg
  rw [put_node, put_link]
  by_cases h : x = u ∧ net.par x = v
  · rw [if_pos h, List.countP_append]
    by_cases h' : isReg w c = true
    · rw [if_pos ⟨h.1, h.2, h'⟩]; simp [h']; omega
    · rw [if_neg (fun hh => h' hh.2.2)]; simp [h']
  · rw [if_neg h, if_neg (fun hh => h ⟨hh.1, hh.2.1⟩)]; omega

theorem nack_put (s : Sys) (u v : Node) (c : Cmd) (x : Node) (w : Who) :
    nack net (s.put u v c) x w =
      nack net s x w + (if net.par x = u ∧ x = v ∧ isAck w c = true then 1 else 0) := by
  unfold nack
  rw [put_link]
  by_cases h : net.par x = u ∧ x = v
  · rw [if_pos h, List.countP_append]
    by_cases h' : isAck w c = true
    · rw [if_pos ⟨h.1, h.2, h'⟩]; simp [h']
    · rw [if_neg (fun hh => h' hh.2.2)]; simp [h']
  · rw [if_neg h, if_neg (fun hh => h ⟨hh.1, hh.2.1⟩)]; omega

theorem Inv1.put (I : Inv1 net s) {u v : Node} {c : Cmd} (hg : Good net s u v c)
    (hm : MayPut net s u v c) : Inv1 net (s.put u v c) := by
  refine I.relink rfl (fun a b p h => ?_) fun x w hx => ?_
  · rw [put_link] at h
    by_cases hab : a = u ∧ b = v
    · rw [if_pos hab] at h
      rcases List.mem_append.1 h with h | h
      · exact I.good _ _ _ h
      · rw [List.mem_singleton] at h; subst h; rw [hab.1, hab.2]; exact hg
    · rw [if_neg hab] at h; exact I.good _ _ _ h
  · have t := I.turn x w hx
    have n1 := nreg_put (net := net) s u v c x w
    have n2 := nack_put (net := net) s u v c x w
    have r : (x = u ∧ net.par x = v ∧ isReg w c = true) →
        nreg net s x w = 0 ∧ nack net s x w = 0 ∧ VNone s x w ∧ ¬ Eu net s x w ∧ isAck w c = false := by
      rintro ⟨h1, h2, h3⟩
      cases c with
      | reg src w' re g =>
        have : w' = w := by simpa [isReg] using h3
        subst this; subst h1
        exact ⟨hm.1, hm.2.1, hm.2.2.1, hm.2.2.2, rfl⟩
      | ack => simp [isReg] at h3
      | pkt => simp [isReg] at h3
    have a : (net.par x = u ∧ x = v ∧ isAck w c = true) →
        nreg net s x w = 0 ∧ nack net s x w = 0 ∧ VNone s x w ∧ ¬ EuNone net s x w ∧ isReg w c = false := by
      rintro ⟨h1, h2, h3⟩
      cases c with
      | ack src d w' ok =>
        have : w' = w := by simpa [isAck] using h3
        subst this; subst h2
        exact ⟨hm.1, hm.2.1, hm.2.2.1, hm.2.2.2, rfl⟩
      | reg => simp [isAck] at h3
      | pkt => simp [isAck] at h3
    by_cases h1 : x = u ∧ net.par x = v ∧ isReg w c = true
    · obtain ⟨ra, rb, rc, rd, re⟩ := r h1
      rw [if_pos h1] at n1
      rw [if_neg (by rw [re]; simp)] at n2
      refine ⟨by omega, fun _ => ?_, fun h => by omega, fun h => ?_⟩
      · exact ⟨rc, rd⟩
      · exact t.wait h
    · rw [if_neg h1] at n1
      by_cases h2 : net.par x = u ∧ x = v ∧ isAck w c = true
      · obtain ⟨ra, rb, rc, rd, re⟩ := a h2
        rw [if_pos h2] at n2
        refine ⟨by omega, fun h => by omega, fun _ => ⟨rc, rd⟩, fun h => t.wait h⟩
      · rw [if_neg h2] at n2
        refine ⟨by have := t.one; omega, fun h => t.reg (by omega), fun h => t.ack (by omega), fun h => t.wait h⟩

/-! ### changes of a node -/

/-- the state with a node replaced -/
def Sys.setNode (s : Sys) (v : Node) (x : NodeSt) : Sys := { s with node := upd s.node v x }

theorem setNode_same (s : Sys) (v : Node) (x : NodeSt) : (s.setNode v x).node v = x := upd_same _ _ _
theorem setNode_ne (s : Sys) {v u : Node} (x : NodeSt) (h : u ≠ v) : (s.setNode v x).node u = s.node u :=
  upd_ne _ _ h
theorem setNode_link (s : Sys) (v : Node) (x : NodeSt) : (s.setNode v x).link = s.link := rfl

theorem Ext.setNode {v : Node} {x : NodeSt}
    (h1 : ∀ e, e ∈ (s.node v).ents → ∃ e' ∈ x.ents, e'.who = e.who ∧ e'.route = e.route ∧
      ∀ i, e.id = some i → e'.id = some i)
    (h2 : ∀ i, (s.node v).id = some i → x.id = some i)
    (h3 : ∀ i c, (s.node v).table i = some c → x.table i = some c)
    (h4 : (s.node v).asked = true → x.asked = true)
    (h5 : ∀ l, l ∈ (s.node v).feds → ∃ l' ∈ x.feds, l'.name = l.name ∧ ∀ i, l.id = some i → l'.id = some i) :
    Ext s (s.setNode v x) := by
  refine ⟨fun u e he => ?_, fun u i h => ?_, fun u i c h => ?_, fun u h => ?_, fun u l hl => ?_⟩ <;>
    by_cases hu : u = v
  · subst hu; rw [setNode_same]; exact h1 e he
  · rw [setNode_ne _ _ hu]; exact ⟨e, he, rfl, rfl, fun _ h => h⟩
  · subst hu; rw [setNode_same]; exact h2 i h
  · rw [setNode_ne _ _ hu]; exact h
  · subst hu; rw [setNode_same]; exact h3 i c h
  · rw [setNode_ne _ _ hu]; exact h
  · subst hu; rw [setNode_same]; exact h4 h
  · rw [setNode_ne _ _ hu]; exact h
  · subst hu; rw [setNode_same]; exact h5 l hl
  · rw [setNode_ne _ _ hu]; exact ⟨l, hl, rfl, fun _ h => h⟩

/-- a property of all nodes, after the change of one -/
theorem allNodes {P : Node → NodeSt → Prop} {v : Node} {x : NodeSt} (h : ∀ u, P u (s.node u)) (hx : P v x)
    (u : Node) : P u ((s.setNode v x).node u) := by
  by_cases hu : u = v
  · subst hu; rw [setNode_same]; exact hx
  · rw [setNode_ne _ _ hu]; exact h u

/-- changes that leave the tables alone: the federates, the waiting registrations, `asked` -/
theorem Inv1.soft (I : Inv1 net s) {v : Node} {x : NodeSt} (hid : x.id = (s.node v).id)
    (hup : x.up = (s.node v).up) (hents : x.ents = (s.node v).ents) (htab : x.table = (s.node v).table)
    (E : Ext s (s.setNode v x))
    (hk : ∀ l l', l ∈ x.feds → l' ∈ x.feds → l.name = l'.name → l = l')
    (hr : ∀ l, l ∈ x.feds → net.core v = true ∧ l.reent = false)
    (ho : ∀ l i, l ∈ x.feds → l.id = some i → Assigned s (.fed l.name) i ∧ (s.node (net.par v)).table i = some v)
    (hd : ∀ c, c ∈ x.delayed → v ≠ 0 ∧ ∃ src w g, c = .reg src w false g ∧ ∃ o, Trail net (s.setNode v x) w o v)
    (ht : ∀ w, v ≠ 0 → nreg net (s.setNode v x) v w ≤ nreg net s v w ∨
      (nreg net (s.setNode v x) v w ≤ 1 ∧ nack net s v w = 0 ∧ VNone s v w ∧ ¬ Eu net s v w)) :
    Inv1 net (s.setNode v x) := by
  have ents : ∀ u, ((s.setNode v x).node u).ents = (s.node u).ents := by
    intro u; by_cases hu : u = v
    · subst hu; rw [setNode_same, hents]
    · rw [setNode_ne _ _ hu]
  have tabl : ∀ u, ((s.setNode v x).node u).table = (s.node u).table := by
    intro u; by_cases hu : u = v
    · subst hu; rw [setNode_same, htab]
    · rw [setNode_ne _ _ hu]
  have ids : ∀ u, ((s.setNode v x).node u).id = (s.node u).id := by
    intro u; by_cases hu : u = v
    · subst hu; rw [setNode_same, hid]
    · rw [setNode_ne _ _ hu]
  have ups : ∀ u, ((s.setNode v x).node u).up = (s.node u).up := by
    intro u; by_cases hu : u = v
    · subst hu; rw [setNode_same, hup]
    · rw [setNode_ne _ _ hu]
  have cnt : ∀ b, ((s.setNode v x).node 0).count b = (s.node 0).count b := by
    intro b; unfold NodeSt.count; rw [ents]
  refine ⟨?_, ?_, ?_, ?_, ?_, ?_, ?_, ?_, ?_, ?_, ?_, ?_, ?_, ?_, ?_, ?_, ?_⟩
  · intro u e e'; rw [ents]; exact I.keys u e e'
  · intro u e; rw [ents]; exact I.noRe u e
  · exact allNodes (P := fun u y => ∀ l l', l ∈ y.feds → l' ∈ y.feds → l.name = l'.name → l = l') I.fedKeys hk
  · exact allNodes (P := fun u y => ∀ l, l ∈ y.feds → net.core u = true ∧ l.reent = false) I.fedRe hr
  · rw [ids, ups]; exact I.rootId
  · intro u e; rw [ents]; intro he
    obtain ⟨h1, o, h2⟩ := I.ent u e he
    exact ⟨h1, o, E.trail h2⟩
  · intro u e i; rw [ents, tabl]; intro he hi h0
    obtain ⟨h1, h2⟩ := I.entId u e i he hi h0
    exact ⟨E.assigned h1, h2⟩
  · intro e; rw [ents]; intro he
    obtain ⟨i, h1, h2⟩ := I.rootIds e he
    refine ⟨i, h1, ?_⟩
    cases hw : e.who with
    | brk n => rw [hw] at h2; simp only [idRange, cnt] at h2 ⊢; exact h2
    | fed n => rw [hw] at h2; simp only [idRange, cnt] at h2 ⊢; exact h2
  · intro e e' i; rw [ents]; exact I.uniq e e' i
  · intro u i c; rw [tabl, ents]; exact I.tab u i c
  · intro u i c; rw [tabl, tabl]; exact I.tabUp u i c
  · intro u i; rw [tabl, ids]; intro hu hi
    obtain ⟨h1, h2⟩ := I.own u i hu hi
    exact ⟨E.assigned h1, h2⟩
  · intro u l i; rw [tabl]
    by_cases hu : u = v
    · subst hu; rw [setNode_same]; intro hl hi
      obtain ⟨h1, h2⟩ := ho l i hl hi
      exact ⟨E.assigned h1, h2⟩
    · rw [setNode_ne _ _ hu]; intro hl hi
      obtain ⟨h1, h2⟩ := I.ownFed u l i hl hi
      exact ⟨E.assigned h1, h2⟩
  · intro u i; rw [ids, ups]; exact I.up u i
  · intro a b p h; exact E.good (I.good a b p h)
  · intro u c
    by_cases hu : u = v
    · subst hu; rw [setNode_same]; exact hd c
    · rw [setNode_ne _ _ hu]; intro h
      obtain ⟨h1, src, w, g, h2, o, h3⟩ := I.del u c h
      exact ⟨h1, src, w, g, h2, o, E.trail h3⟩
  · intro u w hu
    have t := I.turn u w hu
    have vn : VNone (s.setNode v x) u w ↔ VNone s u w := by unfold VNone; rw [ents]
    have eu : Eu net (s.setNode v x) u w ↔ Eu net s u w := by unfold Eu; rw [ents]
    have en : EuNone net (s.setNode v x) u w ↔ EuNone net s u w := by unfold EuNone; rw [ents]
    have na : nack net (s.setNode v x) u w = nack net s u w := rfl
    by_cases hv : u = v
    · subst hv
      rcases ht w hu with h | ⟨h1, h2, h3, h4⟩
      · refine ⟨by rw [na]; have := t.one; omega, fun hh => ?_, fun hh => ?_, fun hh => ?_⟩
        · rw [vn, eu]; exact t.reg (by omega)
        · rw [vn, en]; exact t.ack (by omega)
        · rw [vn]; exact t.wait (en.1 hh)
      · refine ⟨by rw [na]; omega, fun hh => ?_, fun hh => ?_, fun hh => ?_⟩
        · rw [vn, eu]; exact ⟨h3, h4⟩
        · rw [na] at hh; omega
        · rw [vn]; exact t.wait (en.1 hh)
    · have nr : nreg net (s.setNode v x) u w = nreg net s u w := by
        unfold nreg; rw [setNode_ne _ _ hv]; rfl
      refine ⟨by rw [na, nr]; exact t.one, fun hh => ?_, fun hh => ?_, fun hh => ?_⟩
      · rw [vn, eu]; exact t.reg (by omega)
      · rw [vn, en]; exact t.ack (by omega)
      · rw [vn]; exact t.wait (en.1 hh)

end Verif.Routes
