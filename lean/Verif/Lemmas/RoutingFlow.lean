import Verif.Lemmas.RoutingAck
/-! Where packets and news of identifiers are, for C55. -/
namespace Verif.Routes

variable {net : Net} {s : Sys}

/-- the node at which the holder of `d` is -/
def Owner (net : Net) (s : Sys) (d : Id) (o : Node) : Prop :=
  (d = rootId ∧ o = 0) ∨ ∃ w, Assigned s w d ∧ Trail net s w o 0

theorem Ext.owner {s s' : Sys} (E : Ext s s') {d : Id} {o : Node} (x : Owner net s d o) : Owner net s' d o := by
  rcases x with x | ⟨w, a, t⟩
  · exact .inl x
  · exact .inr ⟨w, E.assigned a, E.trail t⟩

section
variable (I : Inv1 net s) (h : net.Ok)
include I h

omit h in
theorem Inv1.ownerBig {d : Id} {o : Node} (x : Owner net s d o) : d ≠ 0 := by
  rcases x with ⟨rfl, _⟩ | ⟨w, a, _⟩
  · decide
  · have := I.big a; omega

theorem Inv1.ownerInj {d : Id} {o o' : Node} (x : Owner net s d o) (y : Owner net s d o') : o = o' := by
  rcases x with ⟨e, rfl⟩ | ⟨w, a, t⟩
  · rcases y with ⟨_, rfl⟩ | ⟨w, a, t⟩
    · rfl
    · have := I.big a; subst e; unfold Routes.rootId at this; omega
  · rcases y with ⟨e, rfl⟩ | ⟨w', a', t'⟩
    · have := I.big a; subst e; unfold Routes.rootId at this; omega
    · have := I.sole a a'; subst this
      exact I.trailInj h t t'

theorem Inv1.ownerOf {w : Who} {d : Id} (a : Assigned s w d) : ∃ o, Trail net s w o 0 := by
  obtain ⟨e, he, hw, _⟩ := a
  obtain ⟨hc, o, t⟩ := I.ent 0 e he
  rw [hw] at t
  exact ⟨o, t.ext h hc e he hw rfl⟩

theorem Inv1.given {d : Id} (g : Given s d) : ∃ o, Owner net s d o := by
  rcases g with e | ⟨e, he, hi⟩
  · exact ⟨0, .inl ⟨e, rfl⟩⟩
  · have a : Assigned s e.who d := ⟨e, he, rfl, hi⟩
    obtain ⟨o, t⟩ := I.ownerOf h a
    exact ⟨o, .inr ⟨_, a, t⟩⟩

/-- a line of a table leads to the holder -/
theorem Inv1.tabOwner {d : Id} (hd : d ≠ 0) : ∀ u c, (s.node u).table d = some c →
    ∃ w o, Assigned s w d ∧ Trail net s w o 0 ∧ Trail net s w o c := by
  intro u
  induction u using Nat.strongRecOn with
  | _ u ih =>
    intro c ht
    obtain ⟨w, o, a, t, hc, e, he, hw, hr⟩ := I.tabEnt ht hd
    by_cases hu : u = 0
    · subst hu
      exact ⟨w, o, a, t.ext h hc e he hw hr, t⟩
    · obtain ⟨w', o', a', t0, tu⟩ := ih _ (h.below u hu) u (I.tabUp u d c hu ht hd)
      have := I.sole a a'; subst this
      have := I.trailInj h (t.ext h hc e he hw hr) tu
      subst this
      exact ⟨w, o, a, t0, t⟩

theorem Inv1.tabBelow {d : Id} {u c o : Node} (x : Owner net s d o) (ht : (s.node u).table d = some c) :
    Child net u c ∧ Below net c o := by
  have hd := I.ownerBig x
  obtain ⟨w, o', a, t0, tc⟩ := I.tabOwner h hd u c ht
  have := I.ownerInj h x (.inr ⟨w, a, t0⟩)
  subst this
  obtain ⟨_, _, _, _, hc, _⟩ := I.tabEnt ht hd
  exact ⟨hc, tc.1⟩

/-- above a node whose table knows `d`, every table does -/
theorem Inv1.tabAbove {d : Id} (hd : d ≠ 0) {a u : Node} (b : Below net a u) :
    (s.node u).table d ≠ none → (s.node a).table d ≠ none := by
  induction b with
  | refl => exact id
  | @step u hu _ ih =>
    intro hn
    refine ih ?_
    cases ht : (s.node u).table d with
    | none => exact absurd ht hn
    | some c => rw [I.tabUp u d c hu ht hd]; intro e; cases e

theorem Inv1.holdsOwner {n : Node} {f : Option String} {d : Id} (x : Holds s n f d) : Owner net s d n := by
  cases f with
  | none =>
    have x : (s.node n).id = some d := x
    by_cases hn : n = 0
    · subst hn; rw [I.rootId.1] at x; cases x; exact .inl ⟨rfl, rfl⟩
    · obtain ⟨a, ht⟩ := I.own n d hn x
      obtain ⟨w, o, a', t0, tc⟩ := I.tabOwner h (by have := I.big a; omega) _ _ ht
      have := I.sole a a'; subst this
      have e := t0.brk; subst e
      exact .inr ⟨_, a, t0⟩
  | some nm =>
    obtain ⟨l, hl, hn, hi⟩ := x
    obtain ⟨a, ht⟩ := I.ownFed n l d hl hi
    obtain ⟨w, o, a', t0, tc⟩ := I.tabOwner h (by have := I.big a; omega) _ _ ht
    have e := tc.1.ofCore h (I.fedRe n l hl).1
    subst e
    exact .inr ⟨_, a', t0⟩

theorem Inv1.hasBelow {a o : Node} {d : Id} (x : Has s a d) (y : Owner net s d o) : Below net a o := by
  rcases x with ⟨f, hf⟩ | ht
  · have := I.ownerInj h (I.holdsOwner h hf) y; subst this; exact .refl
  · cases e : (s.node a).table d with
    | none => exact absurd e ht
    | some c =>
      obtain ⟨hc, b⟩ := I.tabBelow h y e
      exact hc.below.trans b

/-- who has an identifier is unique -/
theorem Inv1.holdsInj {n n' : Node} {f f' : Option String} {d : Id} (x : Holds s n f d) (y : Holds s n' f' d) :
    n = n' ∧ f = f' := by
  have e := I.ownerInj h (I.holdsOwner h x) (I.holdsOwner h y)
  subst e
  refine ⟨rfl, ?_⟩
  have mix : ∀ nm, Holds s n none d → Holds s n (some nm) d → False := by
    intro nm a b
    obtain ⟨l, hl, hn, hi⟩ := b
    have a : (s.node n).id = some d := a
    have as := (I.ownFed n l d hl hi).1
    by_cases h0 : n = 0
    · subst h0
      rw [I.rootId.1] at a; cases a
      have := I.big as; unfold Routes.rootId at this; omega
    · have := I.sole as (I.own n d h0 a).1; cases this
  cases f with
  | none =>
    cases f' with
    | none => rfl
    | some nm => exact absurd (mix nm x y) id
  | some nm =>
    cases f' with
    | none => exact absurd (mix nm y x) id
    | some nm' =>
      obtain ⟨l, hl, hn, hi⟩ := x
      obtain ⟨l', hl', hn', hi'⟩ := y
      have := I.sole (I.ownFed n l d hl hi).1 (I.ownFed n l' d hl' hi').1
      have e : l.name = l'.name := by injection this
      rw [← hn, ← hn', e]

/-- a packet at a node that knows where it belongs -/
theorem Inv1.routeHas {v src : Node} {d : Id} {pr : Bool} {b : Nat} (x : Has s v d) (hd : d ≠ 0) :
    (∃ f, Holds s v f d ∧ (s.node v).onPkt v (net.par v) (net.core v) src d pr b =
      (s.node v, [], [⟨v, f, src, d, pr, b⟩])) ∨
    ∃ c, (s.node v).table d = some c ∧ Child net v c ∧ (s.node v).onPkt v (net.par v) (net.core v) src d pr b =
      (s.node v, [(c, .pkt src d pr b)], []) := by
  by_cases hid : (s.node v).id = some d
  · exact .inl ⟨none, hid, by unfold NodeSt.onPkt; rw [if_pos hid]⟩
  · cases hf : (if net.core v then (s.node v).feds.find? (fun l => l.id == some d) else none) with
    | some l =>
      left
      have : l ∈ (s.node v).feds ∧ l.id = some d := by
        split at hf
        · exact ⟨List.mem_of_find?_eq_some hf, by simpa using List.find?_some hf⟩
        · cases hf
      refine ⟨some l.name, ⟨l, this.1, rfl, this.2⟩, ?_⟩
      unfold NodeSt.onPkt; rw [if_neg hid, hf]
    | none =>
      have htab : (s.node v).table d ≠ none := by
        rcases x with ⟨f, hh⟩ | ht
        · cases f with
          | none => exact absurd hh hid
          | some nm =>
            obtain ⟨l, hl, hn, hi⟩ := hh
            rw [if_pos (I.fedRe v l hl).1] at hf
            have := List.find?_eq_none.1 hf l hl
            rw [hi] at this; simp at this
        · exact ht
      right
      cases ht : (s.node v).table d with
      | none => exact absurd ht htab
      | some c =>
        obtain ⟨_, _, _, _, hc, _⟩ := I.tabEnt ht hd
        refine ⟨c, rfl, hc, ?_⟩
        have hup : (s.node v).up ≠ some d := by
          intro hu
          by_cases hv : v = 0
          · subst hv; rw [I.rootId.2] at hu; cases hu
          · have hid := I.up v d hv hu
            have hn := I.ownTab h hid
            rw [I.tabUp v d c hv ht hd] at hn; cases hn
        unfold NodeSt.onPkt; rw [if_neg hid, hf]
        simp only
        have hr : (s.node v).getRoute (net.par v) d = c := by
          unfold NodeSt.getRoute
          rw [if_neg (by unfold parentId; intro e; exact e.elim hd hup), ht]; rfl
        rw [hr, if_neg (hc.ne h).symm]

/-- a packet at a node that does not -/
theorem Inv1.routeUnknown {v src : Node} {d : Id} {pr : Bool} {b : Nat} (x : ¬ Has s v d) :
    (s.node v).onPkt v (net.par v) (net.core v) src d pr b =
      if v = 0 then (s.node v, [], []) else (s.node v, [(net.par v, .pkt src d pr b)], []) := by
  have hid : (s.node v).id ≠ some d := fun e => x (.inl ⟨none, e⟩)
  have hf : (if net.core v then (s.node v).feds.find? (fun l => l.id == some d) else none) = none := by
    split
    · apply List.find?_eq_none.2
      intro l hl
      simp only [beq_iff_eq]
      intro e
      exact x (.inl ⟨some l.name, l, hl, rfl, e⟩)
    · rfl
  have ht : (s.node v).table d = none := by
    cases ht : (s.node v).table d with
    | none => rfl
    | some c => exact absurd (.inr (by rw [ht]; intro e; cases e)) x
  unfold NodeSt.onPkt; rw [if_neg hid, hf]
  simp only
  have hr : (s.node v).getRoute (net.par v) d = net.par v := by
    unfold NodeSt.getRoute
    split
    · rfl
    · rw [ht]; rfl
  rw [hr]
  by_cases hv : v = 0
  · rw [if_pos hv, if_pos (by rw [hv]; exact h.root)]
  · rw [if_neg hv, if_neg (Nat.ne_of_lt (h.below v hv))]

theorem Inv1.rootHas {o : Node} {d : Id} (y : Owner net s d o) : Has s 0 d := by
  rcases y with ⟨rfl, _⟩ | ⟨w, ⟨e, he, hw, hi⟩, t⟩
  · exact .inl ⟨none, I.rootId.1⟩
  · refine .inr ?_
    rw [(I.entId 0 e d he hi (by have := I.big ⟨e, he, rfl, hi⟩; omega)).2]
    intro e; cases e
end

/-- every identifier that a command on the link calls for is known at the other end, or will be by
then -/
def Led (need : Parcel → Id → Prop) : (Id → Prop) → List Parcel → Prop
  | _, [] => True
  | has, p :: l => (∀ d, need p d → has d ∨ isOk d p.cmd = true) ∧
      Led need (fun d => has d ∨ isOk d p.cmd = true) l

theorem Led.mono {need need' : Parcel → Id → Prop} {l : List Parcel}
    (h1 : ∀ p d, p ∈ l → need' p d → need p d) : ∀ {has has' : Id → Prop}, (∀ d, has d → has' d) →
    Led need has l → Led need' has' l := by
  induction l with
  | nil => intro _ _ _ _; trivial
  | cons p l ih =>
    intro has has' h2 x
    exact ⟨fun d hd => (x.1 d (h1 p d (List.mem_cons_self ..) hd)).imp (h2 d) id,
      ih (fun q d hq => h1 q d (List.mem_cons_of_mem _ hq)) (fun d hd => hd.imp (h2 d) id) x.2⟩

theorem Led.remove {need : Parcel → Id → Prop} {p : Parcel} {post : List Parcel} : ∀ {pre : List Parcel}
    {has : Id → Prop}, (∀ d, isOk d p.cmd = true → has d) → Led need has (pre ++ p :: post) →
    Led need has (pre ++ post) := by
  intro pre
  induction pre with
  | nil =>
    intro has hp x
    exact Led.mono (fun _ _ _ h => h) (fun d hd => hd.elim id (hp d)) x.2
  | cons q pre ih =>
    intro has hp x
    exact ⟨x.1, ih (fun d hd => .inl (hp d hd)) x.2⟩

theorem Led.append {need : Parcel → Id → Prop} {l' : List Parcel} : ∀ {l : List Parcel} {has : Id → Prop},
    Led need has l → (∀ p d, p ∈ l' → need p d → has d ∨ (∃ q ∈ l, isOk d q.cmd = true) ∨ isOk d p.cmd = true) →
    Led need has (l ++ l') := by
  intro l
  induction l with
  | nil =>
    intro has _ x
    induction l' generalizing has with
    | nil => trivial
    | cons p l' ih =>
      refine ⟨fun d hd => ?_, ih trivial fun q d hq hd => ?_⟩
      · rcases x p d (List.mem_cons_self ..) hd with a | ⟨q, hq, _⟩ | a
        · exact .inl a
        · cases hq
        · exact .inr a
      · rcases x q d (List.mem_cons_of_mem _ hq) hd with a | ⟨q, hq, _⟩ | a
        · exact .inl (.inl a)
        · cases hq
        · exact .inr (.inr a)
  | cons q l ih =>
    intro has x y
    refine ⟨x.1, ih x.2 fun p d hp hd => ?_⟩
    rcases y p d hp hd with a | ⟨q', hq, a⟩ | a
    · exact .inl (.inl a)
    · rcases List.mem_cons.1 hq with e | hq
      · subst e; exact .inl (.inr a)
      · exact .inr (.inl ⟨q', hq, a⟩)
    · exact .inr (.inr a)

theorem Led.at {need : Parcel → Id → Prop} {p : Parcel} {post : List Parcel} {d : Id} (hd : need p d) :
    ∀ {pre : List Parcel} {has : Id → Prop}, Led need has (pre ++ p :: post) →
    (∀ q ∈ pre, isOk d q.cmd = false) → has d ∨ isOk d p.cmd = true := by
  intro pre
  induction pre with
  | nil => intro has x _; exact x.1 d hd
  | cons q pre ih =>
    intro has x y
    rcases ih x.2 (fun q hq => y q (List.mem_cons_of_mem _ hq)) with (a | a) | a
    · exact .inl a
    · rw [y q (List.mem_cons_self ..)] at a; cases a
    · exact .inr a

/-- a node that has heard of `d`: every broker above both it and the holder knows where `d` is -/
def Settled (net : Net) (s : Sys) (n : Node) (d : Id) : Prop :=
  ∃ o, Owner net s d o ∧ ∀ a, Below net a n → Below net a o → Has s a d

theorem Ext.settled {s s' : Sys} (E : Ext s s') {n : Node} {d : Id} (x : Settled net s n d) : Settled net s' n d := by
  obtain ⟨o, x, y⟩ := x
  exact ⟨o, E.owner x, fun a h1 h2 => E.has (y a h1 h2)⟩

/-- what a command on the link from `u` to `v` calls for -/
def need (s : Sys) (u v : Node) (p : Parcel) (d : Id) : Prop :=
  (∃ n pr b, p.cmd = .pkt n d pr b) ∨ (d ∈ p.know ∧ (s.node u).table d = some v)

structure Inv2 (net : Net) (s : Sys) : Prop where
  flow : ∀ u c d, d ≠ 0 → (s.node u).table d = some c → Has s c d ∨ ∃ p ∈ s.link u c, isOk d p.cmd = true
  pkt : ∀ u v p n d pr b, p ∈ s.link u v → p.cmd = .pkt n d pr b →
    Child net u v → (s.node u).table d = some v
  led : ∀ u v, Child net u v → Led (need s u v) (Has s v) (s.link u v)
  know : ∀ n d, d ∈ s.know n → Settled net s n d
  knowP : ∀ u v p d, p ∈ s.link u v → d ∈ p.know → Settled net s u d
  stray : s.stray = false
  got : ∀ g, g ∈ s.got → Holds s g.node g.fed g.dest

theorem Ext.holds {s s' : Sys} (E : Ext s s') {n : Node} {f : Option String} {d : Id} (x : Holds s n f d) :
    Holds s' n f d := by
  cases f with
  | none => exact E.id _ _ x
  | some nm =>
    obtain ⟨l, hl, h1, h2⟩ := x
    obtain ⟨l', hl', h3, h4⟩ := E.feds n l hl
    exact ⟨l', hl', h3.trans h1, h4 d h2⟩

theorem Inv2.step (h : net.Ok) (I : Inv1 net s) (J : Inv2 net s) {s' : Sys} (I' : Inv1 net s') (E : Ext s s')
    (out : Node → Node → List Parcel)
    (h1 : ∀ a b, ∃ base, s'.link a b = base ++ out a b ∧ (base = s.link a b ∨
      ∃ pre p post, s.link a b = pre ++ p :: post ∧ base = pre ++ post ∧ ∀ d, isOk d p.cmd = true → Has s' b d))
    (h2 : ∀ a b q, q ∈ out a b → q.know = s'.know a ∧ ∀ n d pr b', q.cmd = .pkt n d pr b' →
      d ≠ 0 ∧ (Child net a b → (s.node a).table d = some b))
    (h3 : ∀ a d c, d ≠ 0 → (s'.node a).table d = some c → (s.node a).table d = some c ∨
      ∃ q, out a c = [q] ∧ isOk d q.cmd = true)
    (h4 : ∀ n d, d ∈ s'.know n → Settled net s' n d)
    (h5 : s'.stray = false)
    (h6 : ∀ g, g ∈ s'.got → Holds s' g.node g.fed g.dest) : Inv2 net s' := by
  have hflow : ∀ u c d, d ≠ 0 → (s.node u).table d = some c → Has s' c d ∨
      ∃ base p, s'.link u c = base ++ out u c ∧ p ∈ base ∧ isOk d p.cmd = true := by
    intro u c d hd ht
    rcases J.flow u c d hd ht with a | ⟨q, hq, a⟩
    · exact .inl (E.has a)
    · obtain ⟨base, e, hb⟩ := h1 u c
      rcases hb with hb | ⟨pre, p, post, hl, hb, hp⟩
      · exact .inr ⟨base, q, e, by rw [hb]; exact hq, a⟩
      · rw [hl] at hq
        rcases List.mem_append.1 hq with hq | hq
        · exact .inr ⟨base, q, e, by rw [hb]; exact List.mem_append_left _ hq, a⟩
        · rcases List.mem_cons.1 hq with hq | hq
          · subst hq; exact .inl (hp d a)
          · exact .inr ⟨base, q, e, by rw [hb]; exact List.mem_append_right _ hq, a⟩
  have hmem : ∀ a b p, p ∈ s'.link a b → p ∈ s.link a b ∨ p ∈ out a b := by
    intro a b p hp
    obtain ⟨base, e, hb⟩ := h1 a b
    rw [e] at hp
    rcases List.mem_append.1 hp with hp | hp
    · left
      rcases hb with hb | ⟨pre, p', post, hl, hb, _⟩
      · rw [← hb]; exact hp
      · rw [hl]; rw [hb] at hp
        rcases List.mem_append.1 hp with hp | hp
        · exact List.mem_append_left _ hp
        · exact List.mem_append_right _ (List.mem_cons_of_mem _ hp)
    · exact .inr hp
  refine ⟨?_, ?_, ?_, h4, ?_, h5, h6⟩
  · intro u c d hd ht
    rcases h3 u d c hd ht with ht | ⟨q, hq, a⟩
    · rcases hflow u c d hd ht with a | ⟨base, p, e, hp, a⟩
      · exact .inl a
      · exact .inr ⟨p, by rw [e]; exact List.mem_append_left _ hp, a⟩
    · obtain ⟨base, e, _⟩ := h1 u c
      exact .inr ⟨q, by rw [e, hq]; exact List.mem_append_right _ (List.mem_singleton.2 rfl), a⟩
  · intro u v p n d pr b hp hcmd
    rcases hmem u v p hp with hp | hp
    · exact fun hc => E.table _ _ _ (J.pkt u v p n d pr b hp hcmd hc)
    · obtain ⟨_, y⟩ := (h2 u v p hp).2 n d pr b hcmd
      exact fun hc => E.table _ _ _ (y hc)
  · intro u v hc
    have hbase : ∀ base, s'.link u v = base ++ out u v → (base = s.link u v ∨
      ∃ pre p post, s.link u v = pre ++ p :: post ∧ base = pre ++ post ∧ ∀ d, isOk d p.cmd = true → Has s' v d) →
      Led (need s' u v) (Has s' v) base := by
      intro base _ hb
      have key : ∀ p d, p ∈ s.link u v → need s' u v p d → need s u v p d := by
        rintro p d hp (x | ⟨hk, ht⟩)
        · exact .inl x
        · right
          refine ⟨hk, ?_⟩
          obtain ⟨o, x, y⟩ := J.knowP u v p d hp hk
          obtain ⟨hc', b⟩ := I'.tabBelow h (E.owner x) ht
          have bo := hc'.below.trans b
          rcases y u .refl bo with ⟨f, hf⟩ | hn
          · have e := I.ownerInj h (I.holdsOwner h hf) x
            subst e
            exact absurd (Nat.lt_of_lt_of_le (hc'.lt h) (b.le h)) (Nat.lt_irrefl _)
          · cases ht' : (s.node u).table d with
            | none => exact absurd ht' hn
            | some c =>
              have := E.table u d c ht'
              rw [ht] at this; cases this; rfl
      have L := Led.mono key (fun d hd => E.has hd) (J.led u v hc)
      rcases hb with hb | ⟨pre, p, post, hl, hb, hp⟩
      · rw [hb]; exact L
      · rw [hb]; rw [hl] at L; exact L.remove hp
    obtain ⟨base, e, hb⟩ := h1 u v
    have L := hbase base e hb
    rw [e]
    refine L.append fun p d hp hd => ?_
    have hn : ∀ hd : d ≠ 0, (s.node u).table d = some v → Has s' v d ∨ ∃ q ∈ base, isOk d q.cmd = true := by
      intro hd ht
      rcases hflow u v d hd ht with a | ⟨base', q, e', hq, a⟩
      · exact .inl a
      · have : base' = base := by rw [e] at e'; exact (List.append_cancel_right e').symm
        subst this
        exact .inr ⟨q, hq, a⟩
    rcases hd with ⟨n, pr, b, hcmd⟩ | ⟨hk, ht⟩
    · obtain ⟨x, y⟩ := (h2 u v p hp).2 n d pr b hcmd
      rcases hn x (y hc) with a | a
      · exact .inl a
      · exact .inr (.inl a)
    · rw [(h2 u v p hp).1] at hk
      obtain ⟨o, x, _⟩ := h4 u d hk
      have hd0 := I'.ownerBig x
      rcases h3 u d v hd0 ht with ht' | ⟨q, hq, a⟩
      · rcases hn hd0 ht' with a | a
        · exact .inl a
        · exact .inr (.inl a)
      · rw [hq, List.mem_singleton] at hp; subst hp
        exact .inr (.inr a)
  · intro u v p d hp hd
    rcases hmem u v p hp with hp | hp
    · exact E.settled (J.knowP u v p d hp hd)
    · rw [(h2 u v p hp).1] at hd; exact h4 u d hd

end Verif.Routes
