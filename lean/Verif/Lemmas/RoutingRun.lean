import Verif.Lemmas.RoutingSys
/-! The invariants of C55 hold throughout: histories. -/
namespace Verif.Routes

variable {net : Net} {s : Sys}

theorem count_map (es : List Ent) (f : Ent → Ent) (hf : ∀ e, (f e).who = e.who) (b : Bool) :
    ((es.map f).filter (fun e => e.who.isFed == b)).length = (es.filter (fun e => e.who.isFed == b)).length := by
  induction es with
  | nil => rfl
  | cons e es ih =>
    rw [List.map_cons, List.filter_cons, List.filter_cons, hf]
    split
    · rw [List.length_cons, List.length_cons, ih]
    · exact ih

theorem count_append (es : List Ent) (e : Ent) (b : Bool) :
    (es.filter (fun e => e.who.isFed == b)).length ≤ ((es ++ [e]).filter (fun e => e.who.isFed == b)).length := by
  rw [List.filter_append, List.length_append]; omega

theorem count_enter (x : NodeSt) (v p : Node) (w : Who) (r : Node) (re : Bool) (g : Nat) :
    x.count true ≤ (x.enter v p w r re g).1.count true := by
  unfold NodeSt.enter
  by_cases hv : v = 0
  · rw [if_pos hv]; exact count_append ..
  · rw [if_neg hv]
    cases hid : x.id with
    | none => exact count_append ..
    | some i => exact count_append ..

theorem count_onCmd (x : NodeSt) (v u : Node) (admit dyn : Bool) (c : Cmd) :
    x.count true ≤ (x.onCmd net v u admit dyn c).1.1.count true := by
  have le : ∀ a b : Nat, a = b → b ≤ a := fun a b e => Nat.le_of_eq e.symm
  cases c with
  | reg src w re g =>
    cases w with
    | brk n =>
      unfold NodeSt.onCmd
      simp only
      split
      · exact Nat.le_refl _
      · unfold NodeSt.regBrk
        simp only
        split
        · exact Nat.le_refl _
        · exact count_enter ..
    | fed nm =>
      unfold NodeSt.onCmd
      simp only
      split
      · exact Nat.le_refl _
      · unfold NodeSt.regFed
        simp only
        split
        · exact Nat.le_refl _
        · split
          · split
            · have key : ∀ r, x.count true = ((x.ents.map (fun e => if e.who = Who.fed nm then { e with route := r } else e)).filter
                  (fun e => e.who.isFed == true)).length := by
                intro r
                refine (count_map _ _ ?_ _).symm
                intro e; split <;> rfl
              split
              · split <;> exact Nat.le_of_eq (key _)
              · split <;> exact Nat.le_of_eq (key _)
            · exact Nat.le_refl _
          · exact count_enter ..
  | ack src d w ok =>
    cases w with
    | brk n =>
      unfold NodeSt.onCmd
      simp only
      split
      · exact Nat.le_refl _
      · unfold NodeSt.ackBrk
        split
        · split <;> exact Nat.le_refl _
        · split
          · split
            · exact Nat.le_refl _
            · refine Nat.le_of_eq (count_map _ _ ?_ _).symm
              intro e; split <;> rfl
          · exact Nat.le_refl _
    | fed nm =>
      unfold NodeSt.onCmd
      simp only
      split
      · unfold NodeSt.ackLocal; split <;> exact Nat.le_refl _
      · unfold NodeSt.ackFed
        split
        · refine Nat.le_of_eq (count_map _ _ ?_ _).symm
          intro e; split <;> rfl
        · exact Nat.le_refl _
  | pkt n d pr b =>
    unfold NodeSt.onCmd NodeSt.onPkt
    simp only
    split
    · exact Nat.le_refl _
    · split
      · exact Nat.le_refl _
      · split <;> exact Nat.le_refl _

theorem onPkt_node (x : NodeSt) (v p : Node) (core : Bool) (n : Node) (d : Id) (pr : Bool) (b : Nat) :
    (x.onPkt v p core n d pr b).1 = x := by
  unfold NodeSt.onPkt
  split
  · rfl
  · split
    · rfl
    · simp only; split <;> rfl

theorem apply_node (s : Sys) (v : Node) (o : Out × Bool) : (s.apply v o).node = upd s.node v o.1.1 := by
  rw [apply_after, after_node]; rfl

theorem upd_self {α : Type} (f : Node → α) (a : Node) : upd f a (f a) = f := by
  funext b; unfold upd; split
  · rename_i e; rw [e]
  · rfl

theorem count_step (s : Sys) (e : Ev) : (s.node 0).count true ≤ ((s.step net e).node 0).count true := by
  have upc : ∀ v x, (s.node v).count true ≤ x.count true → (s.node 0).count true ≤ (upd s.node v x 0).count true := by
    intro v x hx
    by_cases hv : v = 0
    · subst hv; rw [upd_same]; exact hx
    · rw [upd_ne _ _ (fun e => hv e.symm)]; exact Nat.le_refl _
  cases e with
  | connect n =>
    unfold Sys.step; simp only
    split
    · exact Nat.le_refl _
    · exact upc _ _ (Nat.le_refl _)
  | join n nm re g =>
    unfold Sys.step; simp only
    split
    · exact upc _ _ (Nat.le_refl _)
    · split
      · exact upc _ _ (Nat.le_refl _)
      · exact Nat.le_refl _
    · exact Nat.le_refl _
  | leave n nm =>
    unfold Sys.step; simp only
    exact upc _ _ (Nat.le_refl _)
  | send n d pr b =>
    unfold Sys.step; simp only
    split
    · exact Nat.le_refl _
    · rw [apply_node, onPkt_node]
      exact upc _ _ (Nat.le_refl _)
  | take u v first admit dyn =>
    unfold Sys.step; simp only
    split
    · exact Nat.le_refl _
    · rw [apply_node]
      exact upc _ _ (count_onCmd ..)

theorem count_run (es : List Ev) : ∀ s : Sys, (s.node 0).count true ≤ ((s.run net es).node 0).count true := by
  induction es with
  | nil => intro s; exact Nat.le_refl _
  | cons e es ih => intro s; exact Nat.le_trans (count_step s e) (ih (s.step net e))

/-- both invariants -/
structure Inv (net : Net) (s : Sys) : Prop where
  one : Inv1 net s
  two : Inv2 net s

theorem Inv.join (h : net.Ok) (K : Inv net s) {n : Node} {nm : String} {re : Bool} {g : Nat} (hre : re = false) :
    Inv net (s.step net (.join n nm re g)) ∧ Ext s (s.step net (.join n nm re g)) := by
  subst hre
  obtain ⟨I, J⟩ := K
  unfold Sys.step
  simp only
  split
  · rename_i i hc hid hf
    have hn : n ≠ 0 := by intro e; subst e; rw [h.rootBroker] at hc; cases hc
    have hno : ∀ l, l ∈ (s.node n).feds → l.name ≠ nm := by
      intro l hl
      have := List.find?_eq_none.1 hf l hl
      simpa using this
    have E : Ext s (s.setNode n { s.node n with feds := (s.node n).feds ++ [⟨nm, none, false, false⟩] }) := by
      refine Ext.setNode ?_ (fun _ h => h) (fun _ _ h => h) (fun h => h) ?_
      · exact fun e he => ⟨e, he, rfl, rfl, fun _ h => h⟩
      · exact fun l hl => ⟨l, mem_snoc.2 (.inl hl), rfl, fun _ h => h⟩
    obtain ⟨a, b, c⟩ := J.announce h I (v := n) (x := { s.node n with feds := (s.node n).feds ++ [⟨nm, none, false, false⟩] })
      (w := .fed nm) (src := some i) (g := g) hn rfl rfl rfl rfl rfl E
      (by
        intro l l' hl hl' hh
        rcases mem_snoc.1 hl with hl | hl <;> rcases mem_snoc.1 hl' with hl' | hl'
        · exact I.fedKeys n l l' hl hl' hh
        · rw [hl'] at hh; exact absurd hh (hno l hl)
        · rw [hl] at hh; exact absurd hh.symm (hno l' hl')
        · rw [hl, hl'])
      (by
        intro l hl
        rcases mem_snoc.1 hl with hl | hl
        · exact I.fedRe n l hl
        · rw [hl]; exact ⟨hc, rfl⟩)
      (by
        intro l i hl hi
        rcases mem_snoc.1 hl with hl | hl
        · exact I.ownFed n l i hl hi
        · rw [hl] at hi; cases hi)
      (by
        rintro (⟨_, l, hl, hh⟩ | ⟨e, he, hw⟩)
        · exact hno l hl hh
        · have := (I.ent n e he).1.notCore h; rw [hc] at this; cases this)
      (by
        refine ⟨hc, ⟨nm, none, false, false⟩, ?_, rfl⟩
        rw [setNode_same]; exact mem_snoc.2 (.inr rfl))
      (by intro j hj; cases hj; exact hid)
      (by intro hj; cases hj)
    exact ⟨⟨a, b⟩, c⟩
  · rename_i i l hc hid hf
    have := (I.fedRe n l (List.mem_of_find?_eq_some hf)).2
    rw [this]
    exact ⟨⟨I, J⟩, Ext.refl s⟩
  · exact ⟨⟨I, J⟩, Ext.refl s⟩

theorem Inv.connect (h : net.Ok) (K : Inv net s) {n : Node} :
    Inv net (s.step net (.connect n)) ∧ Ext s (s.step net (.connect n)) := by
  obtain ⟨I, J⟩ := K
  unfold Sys.step
  simp only
  split
  · exact ⟨⟨I, J⟩, Ext.refl s⟩
  · rename_i hq
    have hn : n ≠ 0 := fun e => hq (.inl e)
    have ha : ¬ (s.node n).asked = true := fun e => hq (.inr e)
    have E : Ext s (s.setNode n { s.node n with asked := true }) := by
      refine Ext.setNode ?_ (fun _ h => h) (fun _ _ h => h) (fun _ => rfl) ?_
      · exact fun e he => ⟨e, he, rfl, rfl, fun _ h => h⟩
      · exact fun l hl => ⟨l, hl, rfl, fun _ h => h⟩
    obtain ⟨a, b, c⟩ := J.announce h I (v := n) (x := { s.node n with asked := true })
      (w := .brk n) (src := none) (g := 0) hn rfl rfl rfl rfl rfl E (I.fedKeys n) (I.fedRe n) (I.ownFed n)
      (by
        rintro (⟨_, hh⟩ | ⟨e, he, hw⟩)
        · exact ha hh
        · obtain ⟨hc, o, t⟩ := I.ent n e he
          rw [hw] at t
          have e1 := t.brk; subst e1
          exact absurd (Nat.lt_of_lt_of_le (hc.lt h) (t.1.le h)) (Nat.lt_irrefl _))
      (by refine ⟨rfl, ?_⟩; rw [setNode_same])
      (by intro j hj; cases hj)
      (fun _ => rfl)
    exact ⟨⟨a, b⟩, c⟩

theorem Inv.leave (h : net.Ok) (K : Inv net s) {n : Node} {nm : String} :
    Inv net (s.step net (.leave n nm)) ∧ Ext s (s.step net (.leave n nm)) := by
  obtain ⟨I, J⟩ := K
  unfold Sys.step
  simp only
  obtain ⟨f, hf⟩ : ∃ f : LFed → LFed, f = (fun l => if l.name = nm ∧ l.id.isSome then { l with done := true } else l) :=
    ⟨_, rfl⟩
  rw [← hf]
  have hfn : ∀ l, (f l).name = l.name ∧ (f l).id = l.id ∧ (f l).reent = l.reent := by
    intro l; rw [hf]; simp only; split <;> exact ⟨rfl, rfl, rfl⟩
  have E : Ext s (s.setNode n { s.node n with feds := (s.node n).feds.map f }) := by
    refine Ext.setNode ?_ (fun _ h => h) (fun _ _ h => h) (fun h => h) ?_
    · exact fun e he => ⟨e, he, rfl, rfl, fun _ h => h⟩
    · exact fun l hl => ⟨f l, List.mem_map.2 ⟨l, hl, rfl⟩, (hfn l).1, fun i h => by rw [(hfn l).2.1]; exact h⟩
  obtain ⟨a, b⟩ := J.ends h I (v := n) (x := { s.node n with feds := (s.node n).feds.map f })
    rfl rfl rfl rfl rfl E
    (by
      intro l l' hl hl' hh
      obtain ⟨k, hk, rfl⟩ := List.mem_map.1 hl
      obtain ⟨k', hk', rfl⟩ := List.mem_map.1 hl'
      rw [(hfn k).1, (hfn k').1] at hh
      rw [I.fedKeys n k k' hk hk' hh])
    (by
      intro l hl
      obtain ⟨k, hk, rfl⟩ := List.mem_map.1 hl
      rw [(hfn k).2.2]; exact I.fedRe n k hk)
    (by
      intro l i hl hi
      obtain ⟨k, hk, rfl⟩ := List.mem_map.1 hl
      rw [(hfn k).1]; rw [(hfn k).2.1] at hi; exact I.ownFed n k i hk hi)
  exact ⟨⟨a, b⟩, E⟩

theorem Inv.send (h : net.Ok) (K : Inv net s) {n : Node} {d : Id} {pr : Bool} {b : Nat} :
    Inv net (s.step net (.send n d pr b)) ∧ Ext s (s.step net (.send n d pr b)) := by
  obtain ⟨I, J⟩ := K
  unfold Sys.step
  simp only
  split
  · exact ⟨⟨I, J⟩, Ext.refl s⟩
  · rename_i hd
    obtain ⟨a, b, c⟩ := J.packet h I (s1 := { s with sent := s.sent ++ [⟨n, d, pr, b⟩] }) (v := n) (n := n) (pr := pr) (b := b) rfl
      (I.shrink rfl (fun _ _ => List.Sublist.refl _)) (fun _ _ => .inl rfl) J.know J.stray rfl hd
    exact ⟨⟨a, b⟩, c⟩

theorem Inv.take (h : net.Ok) (K : Inv net s) {u v : Node} {first admit dyn : Bool}
    (hs : Small (s.step net (.take u v first admit dyn))) :
    Inv net (s.step net (.take u v first admit dyn)) ∧ Ext s (s.step net (.take u v first admit dyn)) := by
  obtain ⟨I, J⟩ := K
  cases hp : pick first (s.link u v) with
  | none =>
    have e : s.step net (.take u v first admit dyn) = s := by unfold Sys.step; simp only [hp]
    rw [e]; exact ⟨⟨I, J⟩, Ext.refl s⟩
  | some r =>
    obtain ⟨pre, p, post⟩ := r
    obtain ⟨hl, hpre, _, _⟩ := pick_split hp
    have hm : p ∈ s.link u v := by rw [hl]; exact List.mem_append_right _ (List.mem_cons_self ..)
    obtain ⟨o, ho⟩ : ∃ o, o = (s.node v).onCmd net v u admit dyn p.cmd := ⟨_, rfl⟩
    obtain ⟨s0, hs0⟩ : ∃ s0 : Sys, s0 = { s with
        link := upd s.link u (upd (s.link u) v (pre ++ post))
        know := upd s.know v (s.know v ++ p.know) } := ⟨_, rfl⟩
    have e : s.step net (.take u v first admit dyn) = s0.apply v o := by
      rw [hs0, ho]; unfold Sys.step; simp only [hp]
    have hsub : ∀ a b, (s0.link a b).Sublist (s.link a b) := by
      intro a b
      rw [hs0]
      show (upd s.link u (upd (s.link u) v (pre ++ post)) a b).Sublist (s.link a b)
      by_cases ha : a = u
      · subst ha; rw [upd_same]
        by_cases hb : b = v
        · subst hb; rw [upd_same, hl]
          exact List.Sublist.append (List.Sublist.refl _) (List.sublist_cons_self ..)
        · rw [upd_ne _ _ hb]; exact List.Sublist.refl _
      · rw [upd_ne _ _ ha]; exact List.Sublist.refl _
    have hl0 : s0.link u v = pre ++ post := by
      rw [hs0]; show upd s.link u (upd (s.link u) v (pre ++ post)) u v = _
      rw [upd_same, upd_same]
    have g := I.good u v p hm
    rw [e] at hs ⊢
    have gen : isPkt p.cmd = false → Inv net (s0.apply v o) ∧ Ext s (s0.apply v o) := by
      intro hpk
      rw [apply_after] at hs ⊢
      obtain ⟨s1, hs1⟩ : ∃ s1 : Sys, s1 = { s0 with
        know := upd s0.know v (s0.know v ++ fresh o.1.2.1)
        got := s0.got ++ o.1.2.2
        stray := s0.stray || o.2 } := ⟨_, rfl⟩
      rw [← hs1] at hs ⊢
      have hn1 : s1.node = s.node := by rw [hs1, hs0]
      have hlk : s1.link = s0.link := by rw [hs1]
      have I1 : Inv1 net s1 := I.shrink hn1 (by rw [hlk]; exact hsub)
      have E0 : Ext s s1 := Ext.ofNode hn1
      have mp : MayPut net s1 u v p.cmd :=
        I.removed hn1 hl (by rw [hlk]; exact hl0) (by rw [hlk]; exact hsub)
      have T : Treated net s1 v p.cmd o.1 o.2 := by
        cases hc : p.cmd with
        | pkt => rw [hc] at hpk; cases hpk
        | reg src w re gr =>
          rw [hc] at g mp ho
          rw [ho, ← hn1]
          refine treat_reg I1 h (E0.good g) mp ?_
          intro hv
          have hs : ((after s1 v o.1).node 0).count true ≤ 100000000 := hs
          rw [after_node] at hs
          subst hv
          rw [setNode_same, ho, ← hn1] at hs
          exact hs
        | ack src d w ok =>
          rw [hc] at g mp ho
          rw [ho, ← hn1]
          exact treat_ack I1 h (E0.good g) mp
      refine ⟨⟨T.inv, J.treat h I hl hpre hn1 ?_ ?_ ?_ ?_ T⟩, E0.trans T.ext⟩
      · rw [hlk, hs0]
      · rw [hs1, hs0]
        show upd (upd s.know v (s.know v ++ p.know)) v _ = _
        funext m
        by_cases hm : m = v
        · subst hm; rw [upd_same, upd_same]
          show upd s.know m (s.know m ++ p.know) m ++ _ = _
          rw [upd_same]
        · rw [upd_ne _ _ hm, upd_ne _ _ hm, upd_ne _ _ hm]
      · rw [hs1, hs0]
      · rw [hs1, hs0]
    cases hc : p.cmd with
    | reg => exact gen (by rw [hc]; rfl)
    | ack => exact gen (by rw [hc]; rfl)
    | pkt n d pr b =>
      have ho' : o = ((s.node v).onPkt v (net.par v) (net.core v) n d pr b, false) := by
        rw [ho, hc]; rfl
      rw [ho']
      rw [hc] at g
      obtain ⟨a, b, c⟩ := J.packet h I (s1 := s0) (v := v) (n := n) (pr := pr) (b := b) (by rw [hs0])
        (I.shrink (by rw [hs0]) hsub)
        (by
          intro a c
          by_cases ha : a = u ∧ c = v
          · obtain ⟨rfl, rfl⟩ := ha
            exact .inr ⟨pre, p, post, hl, hl0, fun d => by rw [hc]; rfl⟩
          · left
            rw [hs0]
            show upd s.link u (upd (s.link u) v (pre ++ post)) a c = _
            by_cases ha' : a = u
            · subst ha'; rw [upd_same, upd_ne _ _ (fun e => ha ⟨rfl, e⟩)]
            · rw [upd_ne _ _ ha'])
        (by
          intro m d' hd'
          rw [hs0] at hd'
          have hd' : d' ∈ upd s.know v (s.know v ++ p.know) m := hd'
          by_cases hm' : m = v
          · subst hm'; rw [upd_same] at hd'
            rcases List.mem_append.1 hd' with hd' | hd'
            · exact J.know m d' hd'
            · exact J.learn h I hl hpre (Ext.refl s) (fun d hd => by rw [hc] at hd; cases hd) hd'
          · rw [upd_ne _ _ hm'] at hd'; exact J.know m d' hd')
        (by rw [hs0]; exact J.stray) (by rw [hs0]) g.2
      exact ⟨⟨a, b⟩, c⟩

theorem Inv.step (h : net.Ok) (K : Inv net s) (e : Ev)
    (hre : ∀ n nm re g, e = .join n nm re g → re = false)
    (hs : Small (s.step net e)) : Inv net (s.step net e) ∧ Ext s (s.step net e) := by
  cases e with
  | connect n => exact K.connect h
  | join n nm re g => exact K.join h (hre n nm re g rfl)
  | leave n nm => exact K.leave h
  | send n d p b => exact K.send h
  | take u v first admit dyn => exact K.take h hs

theorem Inv.run (h : net.Ok) : ∀ (es : List Ev) (s : Sys), Inv net s → NoReentry es →
    Small (s.run net es) → Inv net (s.run net es) ∧ Ext s (s.run net es) := by
  intro es
  induction es with
  | nil => intro s K _ _; exact ⟨K, Ext.refl s⟩
  | cons e es ih =>
    intro s K hr hs
    obtain ⟨K1, E1⟩ := K.step h e
      (fun n nm re g he => hr n nm re g (by rw [← he]; exact List.mem_cons_self ..))
      (Nat.le_trans (count_run es (s.step net e)) hs)
    obtain ⟨K2, E2⟩ := ih _ K1 (fun n nm re g hm => hr n nm re g (List.mem_cons_of_mem _ hm)) hs
    exact ⟨K2, E1.trans E2⟩

theorem Inv.start (h : net.Ok) : Inv net Sys.start := by
  have hents : ∀ u, (Sys.start.node u).ents = [] := by intro u; unfold Sys.start; simp only; split <;> rfl
  have hfeds : ∀ u, (Sys.start.node u).feds = [] := by intro u; unfold Sys.start; simp only; split <;> rfl
  have htab : ∀ u d, (Sys.start.node u).table d = none := by intro u d; unfold Sys.start; simp only; split <;> rfl
  have hdel : ∀ u, (Sys.start.node u).delayed = [] := by intro u; unfold Sys.start; simp only; split <;> rfl
  have hid : ∀ u, u ≠ 0 → (Sys.start.node u).id = none ∧ (Sys.start.node u).up = none := by
    intro u hu; unfold Sys.start; simp [hu]
  have hlink : ∀ u v, Sys.start.link u v = [] := fun _ _ => rfl
  refine ⟨⟨?_, ?_, ?_, ?_, ⟨rfl, rfl⟩, ?_, ?_, ?_, ?_, ?_, ?_, ?_, ?_, ?_, ?_, ?_, ?_⟩, ⟨?_, ?_, ?_, ?_, ?_, rfl, ?_⟩⟩
  · intro u e e' he; rw [hents] at he; cases he
  · intro u e he; rw [hents] at he; cases he
  · intro u l l' hl; rw [hfeds] at hl; cases hl
  · intro u l hl; rw [hfeds] at hl; cases hl
  · intro u e he; rw [hents] at he; cases he
  · intro u e i he; rw [hents] at he; cases he
  · intro e he; rw [hents] at he; cases he
  · intro e e' i he; rw [hents] at he; cases he
  · intro u i c ht; rw [htab] at ht; cases ht
  · intro u i c _ ht; rw [htab] at ht; cases ht
  · intro u i hu hi; rw [(hid u hu).1] at hi; cases hi
  · intro u l i hl; rw [hfeds] at hl; cases hl
  · intro u i hu hi; rw [(hid u hu).2] at hi; cases hi
  · intro u v p hp; cases hp
  · intro u c hc; rw [hdel] at hc; cases hc
  · intro v w hv
    have e1 : nreg net Sys.start v w = 0 := by unfold nreg; rw [hdel]; rfl
    have e2 : nack net Sys.start v w = 0 := rfl
    refine ⟨by rw [e1, e2]; omega, (fun hp => by rw [e1] at hp; cases hp), (fun hp => by rw [e2] at hp; cases hp), ?_⟩
    rintro ⟨e, he, _⟩
    rw [hents] at he; cases he
  · intro u c d _ ht; rw [htab] at ht; cases ht
  · intro u v p n d pr b hp; cases hp
  · intro u v _; trivial
  · intro n d hd
    have hd : d ∈ (if n = 0 then [Routes.rootId] else []) := hd
    by_cases hn : n = 0
    · subst hn
      rw [if_pos rfl, List.mem_singleton] at hd
      subst hd
      refine ⟨0, .inl ⟨rfl, rfl⟩, fun a ha _ => ?_⟩
      have := ha.le h
      have : a = 0 := by omega
      subst this
      exact .inl ⟨none, rfl⟩
    · rw [if_neg hn] at hd; cases hd
  · intro u v p d hp; cases hp
  · intro g hg; cases hg

end Verif.Routes
