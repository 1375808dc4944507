import Verif.Lemmas.RoutingMicro3
/-! What a node does with a command, for C55. -/
namespace Verif.Routes

variable {net : Net} {s : Sys}

theorem ent_some {x : NodeSt} {w : Who} {e : Ent} (h : x.ent w = some e) : e ∈ x.ents ∧ e.who = w := by
  unfold NodeSt.ent at h
  exact ⟨List.mem_of_find?_eq_some h, by simpa using List.find?_some h⟩

theorem ent_none {x : NodeSt} {w : Who} (h : x.ent w = none) : ∀ e, e ∈ x.ents → e.who ≠ w := by
  unfold NodeSt.ent at h
  intro e he
  have := List.find?_eq_none.1 h e he
  simpa using this

theorem setNode_self (s : Sys) (v : Node) : s.setNode v (s.node v) = s := by
  obtain ⟨n, l, k, a, g, t⟩ := s
  unfold Sys.setNode
  congr
  funext u
  unfold upd
  by_cases h : u = v
  · rw [if_pos h, h]
  · rw [if_neg h]

theorem setNode_set (s : Sys) (v : Node) (x y : NodeSt) : (s.setNode v x).setNode v y = s.setNode v y := by
  have e : upd (upd s.node v x) v y = upd s.node v y := by
    funext u
    unfold upd
    by_cases h : u = v
    · rw [if_pos h, if_pos h]
    · rw [if_neg h, if_neg h, if_neg h]
  show { s with node := upd (upd s.node v x) v y } = { s with node := upd s.node v y }
  rw [e]

/-- an answer that gives out `d` -/
def isOk (d : Id) : Cmd → Bool
  | .ack _ d' _ ok => ok && decide (d' = d)
  | _ => false

def isPkt : Cmd → Bool
  | .pkt .. => true
  | _ => false

/-- somebody at the node has the identifier, or the node knows where it is below -/
def Has (s : Sys) (c : Node) (d : Id) : Prop := (∃ f, Holds s c f d) ∨ (s.node c).table d ≠ none

theorem Ext.has {s s' : Sys} (E : Ext s s') {c : Node} {d : Id} (h : Has s c d) : Has s' c d := by
  rcases h with ⟨f, h⟩ | h
  · cases f with
    | none => exact .inl ⟨none, E.id _ _ h⟩
    | some nm =>
      obtain ⟨l, hl, h1, h2⟩ := h
      obtain ⟨l', hl', h3, h4⟩ := E.feds c l hl
      exact .inl ⟨some nm, l', hl', h3.trans h1, h4 d h2⟩
  · cases ht : (s.node c).table d with
    | none => exact absurd ht h
    | some x => exact .inr (by rw [E.table _ _ _ ht]; simp)

/-- the state after a node has changed to `o.1` and sent `o.2` -/
def after (s : Sys) (v : Node) (o : Out) : Sys := (s.setNode v o.1).puts v o.2.1

def isReg1 : Cmd → Bool
  | .reg .. => true
  | _ => false
def isAck1 : Cmd → Bool
  | .ack .. => true
  | _ => false

/-- the ways a node answers a command other than a packet -/
inductive Shape (net : Net) (x : NodeSt) (v : Node) (c : Cmd) (o : Out) : Prop
  | nothing : o.2.1 = [] → o.1.delayed = x.delayed → Shape net x v c o
  | down (a : Node) (y : Cmd) : o.2.1 = [(a, y)] → o.1.delayed = x.delayed → Child net v a →
      isAck1 y = true → Shape net x v c o
  | up (y : Cmd) : o.2.1 = [(net.par v, y)] → o.1.delayed = x.delayed → v ≠ 0 → isReg1 c = true →
      isReg1 y = true → Shape net x v c o
  | keep (y : Cmd) : o.2.1 = [] → o.1.delayed = x.delayed ++ [y] → v ≠ 0 → isReg1 c = true →
      Shape net x v c o
  | release (d : Id) : o.2.1 = x.delayed.map (fun y => (net.par v, y.from d)) → o.1.delayed = [] →
      v ≠ 0 → Shape net x v c o

/-- what is true of a node's treatment of a command other than a packet -/
structure Treated (net : Net) (s : Sys) (v : Node) (c : Cmd) (o : Out) (stray : Bool) : Prop where
  inv : Inv1 net (after s v o)
  ext : Ext s (after s v o)
  fine : stray = false
  got : o.2.2 = []
  quiet : ∀ x, x ∈ o.2.1 → isPkt x.2 = false
  learns : ∀ d, isOk d c = true → Has (after s v o) v d
  tells : ∀ d t, d ≠ 0 → o.1.table d = some t → (s.node v).table d ≠ some t →
    ∃ x, x ∈ o.2.1 ∧ x.1 = t ∧ isOk d x.2 = true
  count : v = 0 → (s.node 0).count true ≤ o.1.count true
  shape : Shape net (s.node v) v c o

theorem after_node (s : Sys) (v : Node) (o : Out) : (after s v o).node = (s.setNode v o.1).node :=
  puts_node _ _ _

theorem after_one (s : Sys) (v : Node) (x : NodeSt) (a : Node) (c : Cmd) (g : List Got) :
    after s v (x, [(a, c)], g) = (s.setNode v x).put v a c := rfl

theorem after_nil (s : Sys) (v : Node) (x : NodeSt) (g : List Got) : after s v (x, [], g) = s.setNode v x := rfl

theorem enter_some {x : NodeSt} {v p r : Node} {w : Who} {re : Bool} {g : Nat} {i : Id} (hv : v ≠ 0)
    (hid : x.id = some i) : x.enter v p w r re g =
      ({ x with ents := x.ents ++ [⟨w, r, none, re⟩] }, [(p, .reg (some i) w re g)], []) := by
  obtain ⟨a, b, c, d, e, f, g⟩ := x
  cases hid
  unfold NodeSt.enter; rw [if_neg hv]

theorem enter_none {x : NodeSt} {v p r : Node} {w : Who} {re : Bool} {g : Nat} (hv : v ≠ 0)
    (hid : x.id = none) : x.enter v p w r re g =
      ({ x with ents := x.ents ++ [⟨w, r, none, re⟩], delayed := x.delayed ++ [.reg none w re g] }, [], []) := by
  obtain ⟨a, b, c, d, e, f, g⟩ := x
  cases hid
  unfold NodeSt.enter; rw [if_neg hv]

theorem regBrk_route {x : NodeSt} {v p u : Node} {src : Option Id} {n : Node} {admit : Bool}
    (hr : ∀ i, src = some i → x.getRoute p i = u) : x.regBrk v p u src n admit =
      if !admit || (x.ent (.brk n)).isSome then (x, [(u, .ack x.id 0 (.brk n) false)], [])
      else x.enter v p (.brk n) u false 0 := by
  unfold NodeSt.regBrk
  cases src with
  | none => rfl
  | some i => simp only [hr i rfl, ite_self, parentId]

section
variable (I : Inv1 net s) (h : net.Ok)
include I h

/-- the entry for a registration that came from the child `u` -/
theorem treat_enter {v u o : Node} {src : Option Id} {w : Who} {g g' : Nat} (hc : Child net v u)
    (t : Trail net s w o u) (hm : MayPut net s u v (.reg src w false g'))
    (hnew : ∀ e, e ∈ (s.node v).ents → e.who ≠ w)
    (hs : v = 0 → ((s.node v).enter v (net.par v) w u false g).1.count true ≤ 100000000) :
    Treated net s v (.reg src w false g') ((s.node v).enter v (net.par v) w u false g) false := by
  obtain ⟨m1, m2, m3, m4⟩ := hm
  by_cases hv : v = 0
  · subst hv
    have e : (s.node 0).enter 0 (net.par 0) w u false g =
      ({ s.node 0 with
        ents := (s.node 0).ents ++ [⟨w, u, some ((s.node 0).newId w g), false⟩]
        table := emplace (s.node 0).table ((s.node 0).newId w g) u },
       [(u, .ack (s.node 0).id ((s.node 0).newId w g) w true)], []) := by
      unfold NodeSt.enter; rw [if_pos rfl]
    rw [e] at hs ⊢
    obtain ⟨I1, E, h1, h2⟩ := I.enterRoot h hnew hc t m1 m2 m3 rfl (hs rfl)
    have hcu : u ≠ 0 := hc.1
    refine ⟨?_, ?_, rfl, rfl, ?_, ?_, ?_, ?_, .down _ _ rfl rfl hc rfl⟩
    · rw [after_one]
      refine I1.put ⟨hc, ⟨o, E.trail t⟩, ?_, ?_, ?_⟩ ⟨?_, m2, ?_, ?_⟩
      · intro n hn i hi; exact E.id 0 i hi
      · intro _
        refine ⟨h2, ⟨⟨w, u, some ((s.node 0).newId w g), false⟩, ?_, rfl, rfl⟩, ?_⟩
        · rw [setNode_same]; exact mem_snoc.2 (.inr rfl)
        · rw [setNode_same]; exact h1
      · intro hh; cases hh
      · refine Eq.trans (nreg_setNode ?_ u w) m1; rfl
      · unfold VNone; rw [setNode_ne _ _ hcu]; exact m3
      · rintro ⟨e, he, hw, hr, hn⟩
        rw [hc.2, setNode_same] at he
        rcases mem_snoc.1 he with he | he
        · exact hnew e he hw
        · rw [he] at hn; cases hn
    · rw [after_one]; exact E.trans (Ext.ofNode rfl)
    · intro x hx; rw [List.mem_singleton] at hx; subst hx; rfl
    · intro d hd; simp [isOk] at hd
    · intro d c hd ht hne
      refine ⟨_, List.mem_singleton.2 rfl, ?_⟩
      simp only [emplace] at ht
      by_cases hdi : d = (s.node 0).newId w g
      · subst hdi
        rw [if_pos rfl] at ht
        have hxt := h1
        simp only [emplace, if_true] at hxt
        have : some u = some c := hxt.symm.trans ht
        cases this
        exact ⟨rfl, by simp [isOk]⟩
      · rw [if_neg hdi] at ht; exact absurd ht hne
    · intro _
      have := count_snoc (s.node 0) ⟨w, u, some ((s.node 0).newId w g), false⟩ true
      have e2 : ({ s.node 0 with
        ents := (s.node 0).ents ++ [⟨w, u, some ((s.node 0).newId w g), false⟩]
        table := emplace (s.node 0).table ((s.node 0).newId w g) u } : NodeSt).count true =
        ({ s.node 0 with ents := (s.node 0).ents ++ [⟨w, u, some ((s.node 0).newId w g), false⟩] } : NodeSt).count true := rfl
      rw [e2, this]; omega
  · obtain ⟨I1, E⟩ := I.enterUp h hv hnew hc t m1 m2 m3
    have hpv : net.par v ≠ v := Nat.ne_of_lt (h.below v hv)
    have hnot : ¬ VHas net s v w := by
      rintro (ho | ⟨e, he, hw⟩)
      · cases w with
        | brk n =>
          have h1 : n = v := ho.1
          have h2 := t.brk
          have h3 := t.1.le h
          have h4 := hc.lt h
          omega
        | fed nm => have := ho.1; rw [hc.notCore h] at this; cases this
      · exact hnew e he hw
    obtain ⟨n1, n2, n3⟩ := I.idle hnot
    let x1 : NodeSt := { s.node v with ents := (s.node v).ents ++ [⟨w, u, none, false⟩] }
    have t1 : Trail net (s.setNode v x1) w o v :=
      (E.trail t).ext h hc ⟨w, u, none, false⟩ (by rw [setNode_same]; exact mem_snoc.2 (.inr rfl)) rfl rfl
    have v1 : VNone (s.setNode v x1) v w := by
      intro e he hw
      rw [setNode_same] at he
      rcases mem_snoc.1 he with he | he
      · exact absurd hw (hnew e he)
      · rw [he]
    have u1 : ¬ Eu net (s.setNode v x1) v w := by unfold Eu; rw [setNode_ne _ _ hpv]; exact n3
    have r1 : nreg net (s.setNode v x1) v w = 0 := (nreg_setNode (x := x1) rfl v w).trans n1
    cases hid : (s.node v).id with
    | some i =>
      have e : (s.node v).enter v (net.par v) w u false g = (x1, [(net.par v, .reg (some i) w false g)], []) := by
        exact enter_some hv hid
      rw [e]
      refine ⟨?_, ?_, rfl, rfl, ?_, ?_, ?_, fun h => absurd h hv, .up _ rfl rfl hv rfl rfl⟩
      · rw [after_one]
        refine I1.put ⟨⟨hv, rfl⟩, ⟨o, t1⟩, ?_, ?_, rfl⟩ ⟨r1, n2, v1, u1⟩
        · intro j hj; cases hj; rw [setNode_same]; exact hid
        · intro hj; cases hj
      · rw [after_one]; exact E.trans (Ext.ofNode rfl)
      · intro x hx; rw [List.mem_singleton] at hx; subst hx; rfl
      · intro d hd; simp [isOk] at hd
      · intro d c _ ht hne; exact absurd ht hne
    | none =>
      have e : (s.node v).enter v (net.par v) w u false g =
          ({ x1 with delayed := x1.delayed ++ [.reg none w false g] }, [], []) := by
        exact enter_none hv hid
      rw [e]
      have E2 : Ext (s.setNode v x1) ((s.setNode v x1).setNode v { x1 with delayed := x1.delayed ++ [.reg none w false g] }) := by
        have hsame : (s.setNode v x1).node v = x1 := setNode_same _ _ _
        refine Ext.setNode ?_ ?_ ?_ ?_ ?_ <;> rw [hsame]
        · exact fun e he => ⟨e, he, rfl, rfl, fun _ h => h⟩
        · exact fun i hi => hi
        · exact fun i c hi => hi
        · exact fun h => h
        · exact fun l hl => ⟨l, hl, rfl, fun _ h => h⟩
      have I2 : Inv1 net ((s.setNode v x1).setNode v { x1 with delayed := x1.delayed ++ [.reg none w false g] }) := by
        have hsame : (s.setNode v x1).node v = x1 := setNode_same _ _ _
        refine I1.soft (by rw [hsame]) (by rw [hsame]) (by rw [hsame]) (by rw [hsame]) E2 ?_ ?_ ?_ ?_ ?_
        · have := I1.fedKeys v; rw [hsame] at this; exact this
        · have := I1.fedRe v; rw [hsame] at this; exact this
        · have := I1.ownFed v; rw [hsame] at this; exact this
        · intro c hcc
          refine ⟨hv, ?_⟩
          rcases mem_snoc.1 hcc with hcc | hcc
          · have := I1.del v c; rw [hsame] at this
            obtain ⟨_, src, w', g', h1, o', h2⟩ := this hcc
            exact ⟨src, w', g', h1, o', E2.trail h2⟩
          · exact ⟨none, w, g, hcc, o, E2.trail t1⟩
        · intro w' _
          by_cases hw : w' = w
          · right
            subst hw
            refine ⟨?_, n2, v1, u1⟩
            unfold nreg at r1 ⊢
            rw [setNode_same]
            rw [hsame] at r1
            simp only [List.countP_append, setNode_link] at r1 ⊢
            have : ([Cmd.reg none w' false g] : List Cmd).countP (isReg w') = 1 := by simp [isReg]
            omega
          · left
            unfold nreg
            rw [setNode_same, hsame]
            simp only [List.countP_append, setNode_link]
            have : ([Cmd.reg none w false g] : List Cmd).countP (isReg w') = 0 := by
              simp [isReg]; exact fun e => hw e.symm
            omega
      rw [setNode_set] at I2 E2
      refine ⟨I2, ?_, rfl, rfl, ?_, ?_, ?_, fun h => absurd h hv, .keep _ rfl rfl hv rfl⟩
      · rw [after_nil]; exact E.trans E2
      · intro x hx; cases hx
      · intro d hd; simp [isOk] at hd
      · intro d c _ ht hne; exact absurd ht hne

/-- a registration is turned down -/
theorem treat_refuse {v u o : Node} {src : Option Id} {w : Who} {g' : Nat} (hc : Child net v u)
    (t : Trail net s w o u) (hm : MayPut net s u v (.reg src w false g')) :
    Treated net s v (.reg src w false g') (s.node v, [(u, .ack (s.node v).id 0 w false)], []) false := by
  obtain ⟨m1, m2, m3, m4⟩ := hm
  refine ⟨?_, ?_, rfl, rfl, ?_, ?_, ?_, fun _ => by subst_vars; exact Nat.le_refl _,
    .down _ _ rfl rfl hc rfl⟩
  · rw [after_one, setNode_self]
    refine I.put ⟨hc, ⟨o, t⟩, ?_, ?_, fun _ => rfl⟩ ⟨m1, m2, m3, ?_⟩
    · intro n hn i hi; exact hi
    · intro hh; cases hh
    · rintro ⟨e, he, hw, hr, _⟩; exact m4 ⟨e, he, hw, hr⟩
  · rw [after_one, setNode_self]; exact Ext.ofNode rfl
  · intro x hx; rw [List.mem_singleton] at hx; subst hx; rfl
  · intro d hd; simp [isOk] at hd
  · intro d c _ ht hne; exact absurd ht hne

theorem treat_reg {v u : Node} {src : Option Id} {w : Who} {re : Bool} {g : Nat} {admit dyn : Bool}
    (hg : Good net s u v (.reg src w re g)) (hm : MayPut net s u v (.reg src w re g))
    (hs : v = 0 → ((s.node v).onCmd net v u admit dyn (.reg src w re g)).1.1.count true ≤ 100000000) :
    Treated net s v (.reg src w re g) ((s.node v).onCmd net v u admit dyn (.reg src w re g)).1
      ((s.node v).onCmd net v u admit dyn (.reg src w re g)).2 := by
  obtain ⟨hc, ⟨o, t⟩, hsrc, hnone, hre⟩ := hg
  subst hre
  have hcore := hc.notCore h
  cases w with
  | brk n =>
    have e : (s.node v).onCmd net v u admit dyn (.reg src (.brk n) false g) =
        (if !admit || ((s.node v).ent (.brk n)).isSome then
          ((s.node v, [(u, .ack (s.node v).id 0 (.brk n) false)], []), false)
         else ((s.node v).enter v (net.par v) (.brk n) u false 0, false)) := by
      unfold NodeSt.onCmd
      simp only [hcore, Bool.false_eq_true, if_false]
      rw [regBrk_route (fun i hi => I.routeBack h hc (hsrc i hi))]
      split <;> rfl
    rw [e] at hs ⊢
    by_cases hq : (!admit || ((s.node v).ent (.brk n)).isSome) = true
    · rw [if_pos hq]; exact treat_refuse I h hc t hm
    · rw [if_neg hq] at hs ⊢
      have hnew : ∀ e, e ∈ (s.node v).ents → e.who ≠ .brk n := by
        apply ent_none
        cases he : (s.node v).ent (.brk n) with
        | none => rfl
        | some e => rw [he] at hq; simp at hq
      exact treat_enter I h hc t hm hnew hs
  | fed nm =>
    obtain ⟨i, hi⟩ : ∃ i, src = some i := by
      cases src with
      | none => have := hnone rfl; cases this
      | some i => exact ⟨i, rfl⟩
    subst hi
    have hrb := I.routeBack h hc (hsrc i rfl)
    have e : (s.node v).onCmd net v u admit dyn (.reg (some i) (.fed nm) false g) =
        (if !admit || ((s.node v).ent (.fed nm)).isSome then
          ((s.node v, [(u, .ack (s.node v).id 0 (.fed nm) false)], []), false)
         else ((s.node v).enter v (net.par v) (.fed nm) u false g, false)) := by
      unfold NodeSt.onCmd
      simp only [hcore]
      unfold NodeSt.regFed
      simp only [hrb, parentId]
      cases admit with
      | false => simp
      | true =>
        cases he : (s.node v).ent (.fed nm) with
        | none => simp
        | some e => simp
    rw [e] at hs ⊢
    by_cases hq : (!admit || ((s.node v).ent (.fed nm)).isSome) = true
    · rw [if_pos hq]; exact treat_refuse I h hc t hm
    · rw [if_neg hq] at hs ⊢
      have hnew : ∀ e, e ∈ (s.node v).ents → e.who ≠ .fed nm := by
        apply ent_none
        cases he : (s.node v).ent (.fed nm) with
        | none => rfl
        | some e => rw [he] at hq; simp at hq
      exact treat_enter I h hc t hm hnew hs
end

end Verif.Routes
