import Verif.Lemmas.RoutingRun
/-! Counting what is on its way, for C55. -/
namespace Verif.Routes

variable {net : Net} {s : Sys}

def sumTo : Nat → (Nat → Nat) → Nat
  | 0, _ => 0
  | n + 1, g => sumTo n g + g n

theorem sumTo_congr {n : Nat} {g g' : Nat → Nat} (h : ∀ i, i < n → g i = g' i) : sumTo n g = sumTo n g' := by
  induction n with
  | zero => rfl
  | succ n ih =>
    unfold sumTo
    rw [ih (fun i hi => h i (by omega)), h n (by omega)]

theorem sumTo_one {n a : Nat} {g g' : Nat → Nat} (ha : a < n) (h : ∀ i, i ≠ a → g' i = g i) :
    sumTo n g' + g a = sumTo n g + g' a := by
  induction n with
  | zero => omega
  | succ n ih =>
    unfold sumTo
    by_cases e : a = n
    · subst e
      have := sumTo_congr (n := a) (g := g') (g' := g) (fun i hi => h i (by omega))
      omega
    · have := ih (by omega)
      have := h n (fun e' => e e'.symm)
      omega

theorem sumTo_zero {n : Nat} {g : Nat → Nat} (h : ∀ i, i < n → g i = 0) : sumTo n g = 0 := by
  induction n with
  | zero => rfl
  | succ n ih =>
    unfold sumTo
    rw [ih (fun i hi => h i (by omega)), h n (by omega)]

def weigh (f : Cmd → Nat) : List Parcel → Nat
  | [] => 0
  | p :: l => f p.cmd + weigh f l

theorem weigh_append (f : Cmd → Nat) (a b : List Parcel) : weigh f (a ++ b) = weigh f a + weigh f b := by
  induction a with
  | nil => simp [weigh]
  | cons p a ih => simp only [List.cons_append, weigh, ih]; omega

/-- the sum of `f` over everything on the links between nodes below `M` -/
def total (M : Nat) (f : Node → Node → Cmd → Nat) (s : Sys) : Nat :=
  sumTo M (fun u => sumTo M (fun v => weigh (f u v) (s.link u v)))

theorem total_link {M : Nat} {f : Node → Node → Cmd → Nat} {s s' : Sys} {u v : Node} (hu : u < M) (hv : v < M)
    (h : ∀ a b, ¬ (a = u ∧ b = v) → s'.link a b = s.link a b) :
    total M f s' + weigh (f u v) (s.link u v) = total M f s + weigh (f u v) (s'.link u v) := by
  have h1 : ∀ a, a ≠ u → sumTo M (fun v => weigh (f a v) (s'.link a v)) = sumTo M (fun v => weigh (f a v) (s.link a v)) := by
    intro a ha
    refine sumTo_congr fun b _ => ?_
    rw [h a b (fun e => ha e.1)]
  have h2 := sumTo_one (n := M) (a := u) (g := fun a => sumTo M (fun v => weigh (f a v) (s.link a v)))
    (g' := fun a => sumTo M (fun v => weigh (f a v) (s'.link a v))) hu h1
  have h3 := sumTo_one (n := M) (a := v) (g := fun b => weigh (f u b) (s.link u b))
    (g' := fun b => weigh (f u b) (s'.link u b)) hv (by
      intro b hb
      rw [h u b (fun e => hb e.2)])
  unfold total
  omega

theorem total_put {M : Nat} {f : Node → Node → Cmd → Nat} {u v : Node} {c : Cmd} (hu : u < M) (hv : v < M) :
    total M f (s.put u v c) = total M f s + f u v c := by
  have := total_link (M := M) (f := f) (s := s) (s' := s.put u v c) hu hv (fun a b hh => by
    rw [put_link, if_neg hh])
  have e : (s.put u v c).link u v = s.link u v ++ [⟨c, s.know u⟩] := by
    rw [put_link, if_pos ⟨rfl, rfl⟩]
  rw [e, weigh_append] at this
  simp only [weigh] at this
  omega

def sumOut (f : Node → Cmd → Nat) : List (Node × Cmd) → Nat
  | [] => 0
  | c :: cs => f c.1 c.2 + sumOut f cs

theorem total_puts {M : Nat} {f : Node → Node → Cmd → Nat} {u : Node} (hu : u < M) (cs : List (Node × Cmd)) :
    ∀ (s : Sys), (∀ c, c ∈ cs → c.1 < M) → total M f (s.puts u cs) = total M f s + sumOut (f u) cs := by
  induction cs with
  | nil => intro s _; rfl
  | cons c cs ih =>
    intro s hc
    have e : s.puts u (c :: cs) = (s.put u c.1 c.2).puts u cs := rfl
    rw [e, ih _ (fun x hx => hc x (List.mem_cons_of_mem _ hx)), total_put hu (hc c (List.mem_cons_self ..))]
    simp only [sumOut]; omega

theorem total_links {M : Nat} {f : Node → Node → Cmd → Nat} {s s' : Sys} (h : s'.link = s.link) :
    total M f s' = total M f s := by unfold total; rw [h]

theorem total_apply {M : Nat} {f : Node → Node → Cmd → Nat} {v : Node} {o : Out × Bool} (hv : v < M)
    (hc : ∀ c, c ∈ o.1.2.1 → c.1 < M) : total M f (s.apply v o) = total M f s + sumOut (f v) o.1.2.1 := by
  unfold Sys.apply
  simp only
  rw [total_puts hv _ _ hc]
  congr 1

theorem total_remove {M : Nat} {f : Node → Node → Cmd → Nat} {s s0 : Sys} {u v : Node} {pre post : List Parcel}
    {p : Parcel} (hu : u < M) (hv : v < M) (hl : s.link u v = pre ++ p :: post)
    (hl0 : s0.link = upd s.link u (upd (s.link u) v (pre ++ post))) :
    total M f s = total M f s0 + f u v p.cmd := by
  have := total_link (M := M) (f := f) (s := s) (s' := s0) hu hv (fun a b hh => by
    rw [hl0]
    by_cases ha : a = u
    · subst ha; rw [upd_same, upd_ne _ _ (fun e => hh ⟨rfl, e⟩)]
    · rw [upd_ne _ _ ha])
  have e : s0.link u v = pre ++ post := by rw [hl0, upd_same, upd_same]
  rw [e, hl, weigh_append, weigh_append] at this
  simp only [weigh] at this
  omega

/-- `M` is beyond everything that goes on -/
structure Fits (M : Nat) (s : Sys) : Prop where
  links : ∀ u v, s.link u v ≠ [] → u < M ∧ v < M
  orgs : ∀ o, (s.node o).asked = true ∨ (s.node o).feds ≠ [] → o < M

theorem Fits.mono {M M' : Nat} (F : Fits M s) (h : M ≤ M') : Fits M' s :=
  ⟨fun u v e => ⟨Nat.lt_of_lt_of_le (F.links u v e).1 h, Nat.lt_of_lt_of_le (F.links u v e).2 h⟩,
   fun o e => Nat.lt_of_lt_of_le (F.orgs o e) h⟩

theorem Fits.trail {M : Nat} (F : Fits M s) (h : net.Ok) {w : Who} {o u : Node} (t : Trail net s w o u) : u < M := by
  refine Nat.lt_of_le_of_lt (t.1.le h) (F.orgs o ?_)
  cases w with
  | brk n => exact .inl t.2.1.2
  | fed nm =>
    obtain ⟨_, l, hl, _⟩ := t.2.1
    exact .inr (fun e => by rw [e] at hl; cases hl)

theorem Fits.table {M : Nat} (F : Fits M s) (h : net.Ok) (I : Inv1 net s) {u c : Node} {d : Id} (hd : d ≠ 0)
    (ht : (s.node u).table d = some c) : u < M ∧ c < M := by
  obtain ⟨w, o, _, t, hc, _⟩ := I.tabEnt ht hd
  have := F.trail h t
  exact ⟨Nat.lt_trans (hc.lt h) this, this⟩

theorem onCmd_org (x : NodeSt) (v u : Node) (admit dyn : Bool) (c : Cmd) :
    (x.onCmd net v u admit dyn c).1.1.asked = x.asked ∧
    (x.feds = [] → (x.onCmd net v u admit dyn c).1.1.feds = []) := by
  have ent : ∀ v p w r re g, (x.enter v p w r re g).1.asked = x.asked ∧ (x.feds = [] → (x.enter v p w r re g).1.feds = []) := by
    intro v p w r re g
    unfold NodeSt.enter
    simp only
    split
    · exact ⟨rfl, id⟩
    · split <;> exact ⟨rfl, id⟩
  cases c with
  | reg src w re g =>
    cases w with
    | brk n =>
      unfold NodeSt.onCmd
      simp only
      split
      · exact ⟨rfl, id⟩
      · unfold NodeSt.regBrk
        simp only
        split
        · exact ⟨rfl, id⟩
        · exact ent ..
    | fed nm =>
      unfold NodeSt.onCmd
      simp only
      split
      · exact ⟨rfl, id⟩
      · unfold NodeSt.regFed
        simp only
        split
        · exact ⟨rfl, id⟩
        · split
          · split
            · split
              · split <;> exact ⟨rfl, id⟩
              · split <;> exact ⟨rfl, id⟩
            · exact ⟨rfl, id⟩
          · exact ent ..
  | ack src d w ok =>
    cases w with
    | brk n =>
      unfold NodeSt.onCmd
      simp only
      split
      · exact ⟨rfl, id⟩
      · unfold NodeSt.ackBrk
        split
        · split <;> exact ⟨rfl, id⟩
        · split
          · split <;> exact ⟨rfl, id⟩
          · exact ⟨rfl, id⟩
    | fed nm =>
      unfold NodeSt.onCmd
      simp only
      split
      · unfold NodeSt.ackLocal
        split
        · exact ⟨rfl, fun e => by simp only; rw [e]; rfl⟩
        · exact ⟨rfl, id⟩
      · unfold NodeSt.ackFed
        split <;> exact ⟨rfl, id⟩
  | pkt n d pr b =>
    unfold NodeSt.onCmd
    simp only
    rw [onPkt_node]; exact ⟨rfl, id⟩

/-- the treatment of a command that is no packet, once it has been taken off its link -/
theorem Inv.taken (h : net.Ok) (K : Inv net s) {u v : Node} {first admit dyn : Bool} {pre post : List Parcel} {p : Parcel}
    (hp : pick first (s.link u v) = some (pre, p, post)) (hpk : isPkt p.cmd = false)
    (hs : v = 0 → ((s.node v).onCmd net v u admit dyn p.cmd).1.1.count true ≤ 100000000)
    {s1 : Sys} (hn1 : s1.node = s.node) (hl1 : s1.link = upd s.link u (upd (s.link u) v (pre ++ post))) :
    Treated net s1 v p.cmd ((s.node v).onCmd net v u admit dyn p.cmd).1 ((s.node v).onCmd net v u admit dyn p.cmd).2 := by
  have I := K.one
  obtain ⟨hl, hpre, _, _⟩ := pick_split hp
  have hm : p ∈ s.link u v := by rw [hl]; exact List.mem_append_right _ (List.mem_cons_self ..)
  have g := I.good u v p hm
  have hsub : ∀ a b, (s1.link a b).Sublist (s.link a b) := by
    intro a b
    rw [hl1]
    by_cases ha : a = u
    · subst ha; rw [upd_same]
      by_cases hb : b = v
      · subst hb; rw [upd_same, hl]
        exact List.Sublist.append (List.Sublist.refl _) (List.sublist_cons_self ..)
      · rw [upd_ne _ _ hb]; exact List.Sublist.refl _
    · rw [upd_ne _ _ ha]; exact List.Sublist.refl _
  have hl0 : s1.link u v = pre ++ post := by rw [hl1, upd_same, upd_same]
  have I1 : Inv1 net s1 := I.shrink hn1 hsub
  have E0 : Ext s s1 := Ext.ofNode hn1
  have mp : MayPut net s1 u v p.cmd := I.removed hn1 hl hl0 hsub
  cases hc : p.cmd with
  | pkt => rw [hc] at hpk; cases hpk
  | reg src w re gr =>
    rw [hc] at g mp hs
    rw [← hn1] at hs ⊢
    exact treat_reg I1 h (E0.good g) mp hs
  | ack src d w ok =>
    rw [hc] at g mp
    rw [← hn1]
    exact treat_ack I1 h (E0.good g) mp

theorem take_some {u v : Node} {first admit dyn : Bool} {pre post : List Parcel} {p : Parcel}
    (hp : pick first (s.link u v) = some (pre, p, post)) :
    s.step net (.take u v first admit dyn) = ({ s with
        link := upd s.link u (upd (s.link u) v (pre ++ post))
        know := upd s.know v (s.know v ++ p.know) } : Sys).apply v ((s.node v).onCmd net v u admit dyn p.cmd) := by
  unfold Sys.step; simp only [hp]

theorem take_none {u v : Node} {first admit dyn : Bool} (hp : pick first (s.link u v) = none) :
    s.step net (.take u v first admit dyn) = s := by
  unfold Sys.step; simp only [hp]

/-- what becomes of a packet -/
theorem Inv.packet' (h : net.Ok) (K : Inv net s) {v n : Node} {d : Id} {pr : Bool} {b : Nat} (hd : d ≠ 0) :
    (∃ f, Holds s v f d ∧ (s.node v).onPkt v (net.par v) (net.core v) n d pr b =
      (s.node v, [], [⟨v, f, n, d, pr, b⟩])) ∨
    (∃ c, Has s v d ∧ (s.node v).table d = some c ∧ Child net v c ∧
      (s.node v).onPkt v (net.par v) (net.core v) n d pr b = (s.node v, [(c, .pkt n d pr b)], [])) ∨
    (¬ Has s v d ∧ v ≠ 0 ∧ (s.node v).onPkt v (net.par v) (net.core v) n d pr b =
      (s.node v, [(net.par v, .pkt n d pr b)], [])) ∨
    (¬ Has s v d ∧ v = 0 ∧ (s.node v).onPkt v (net.par v) (net.core v) n d pr b = (s.node v, [], [])) := by
  by_cases hh : Has s v d
  · rcases K.one.routeHas h (src := n) (pr := pr) (b := b) hh hd with a | ⟨c, a, b, c'⟩
    · exact .inl a
    · exact .inr (.inl ⟨c, hh, a, b, c'⟩)
  · have e := K.one.routeUnknown h (src := n) (pr := pr) (b := b) hh
    by_cases hv : v = 0
    · rw [if_pos hv] at e; exact .inr (.inr (.inr ⟨hh, hv, e⟩))
    · rw [if_neg hv] at e; exact .inr (.inr (.inl ⟨hh, hv, e⟩))

theorem Inv.packet (h : net.Ok) (K : Inv net s) {v n o : Node} {d : Id} {pr : Bool} {b : Nat} (x : Owner net s d o) :
    (∃ f, Holds s v f d ∧ (s.node v).onPkt v (net.par v) (net.core v) n d pr b =
      (s.node v, [], [⟨v, f, n, d, pr, b⟩])) ∨
    (∃ c, Has s v d ∧ (s.node v).table d = some c ∧ Child net v c ∧
      (s.node v).onPkt v (net.par v) (net.core v) n d pr b = (s.node v, [(c, .pkt n d pr b)], [])) ∨
    (¬ Has s v d ∧ v ≠ 0 ∧ (s.node v).onPkt v (net.par v) (net.core v) n d pr b =
      (s.node v, [(net.par v, .pkt n d pr b)], [])) := by
  rcases K.packet' h (v := v) (n := n) (pr := pr) (b := b) (K.one.ownerBig x) with a | a | a | ⟨a, e, _⟩
  · exact .inl a
  · exact .inr (.inl a)
  · exact .inr (.inr a)
  · subst e; exact absurd (K.one.rootHas h x) a

/-- every packet on its way is for somebody -/
def Addr (net : Net) (s : Sys) : Prop := ∀ u v p n d pr b, p ∈ s.link u v → p.cmd = .pkt n d pr b →
  ∃ o, Owner net s d o

theorem onPkt_out (x : NodeSt) (v p : Node) (core : Bool) (n : Node) (d : Id) (pr : Bool) (b : Nat) :
    ∀ y, y ∈ (x.onPkt v p core n d pr b).2.1 → y.2 = .pkt n d pr b := by
  unfold NodeSt.onPkt
  split
  · intro y hy; cases hy
  · split
    · intro y hy; cases hy
    · simp only
      split
      · intro y hy; cases hy
      · intro y hy; rw [List.mem_singleton] at hy; subst hy; rfl

theorem mem_apply {s0 : Sys} {v a b : Node} {o : Out × Bool} {q : Parcel} (h : q ∈ (s0.apply v o).link a b) :
    q ∈ s0.link a b ∨ ∃ y, y ∈ o.1.2.1 ∧ q.cmd = y.2 := by
  rw [apply_after] at h
  unfold after at h
  rw [puts_link] at h
  split at h
  · rcases List.mem_append.1 h with h | h
    · exact .inl h
    · obtain ⟨y, hy, rfl⟩ := List.mem_map.1 h
      exact .inr ⟨y, (List.mem_filter.1 hy).1, rfl⟩
  · exact .inl h

theorem Addr.step (h : net.Ok) (K : Inv net s) (A : Addr net s) (e : Ev)
    (hre : ∀ n nm re g, e = .join n nm re g → re = false)
    (had : ∀ n d p b, e = .send n d p b → Given s d)
    (hs : Small (s.step net e)) : Addr net (s.step net e) := by
  have E := (K.step h e hre hs).2
  suffices ∀ u v p n d pr b, p ∈ (s.step net e).link u v → p.cmd = .pkt n d pr b → ∃ o, Owner net s d o by
    intro u v p n d pr b hp hc
    obtain ⟨o, x⟩ := this u v p n d pr b hp hc
    exact ⟨o, E.owner x⟩
  have soft : ∀ (s1 : Sys) (a b : Node) (c : Cmd), s1.link = s.link → isPkt c = false →
      ∀ u v p n d pr b', p ∈ (s1.put a b c).link u v → p.cmd = .pkt n d pr b' → ∃ o, Owner net s d o := by
    intro s1 a b c hl hc u v p n d pr b' hp hcmd
    rw [put_link, hl] at hp
    split at hp
    · rcases List.mem_append.1 hp with hp | hp
      · exact A u v p n d pr b' hp hcmd
      · rw [List.mem_singleton] at hp; subst hp
        simp only at hcmd; rw [hcmd] at hc; cases hc
    · exact A u v p n d pr b' hp hcmd
  cases e with
  | connect n =>
    unfold Sys.step; simp only
    split
    · exact A
    · exact soft _ _ _ _ rfl rfl
  | join n nm re g =>
    unfold Sys.step; simp only
    split
    · exact soft _ _ _ _ rfl rfl
    · split
      · exact soft _ _ _ _ rfl rfl
      · exact A
    · exact A
  | leave n nm => exact A
  | send n d pr b =>
    obtain ⟨o, x⟩ := K.one.given h (had n d pr b rfl)
    unfold Sys.step; simp only
    split
    · exact A
    · intro u v p n' d' pr' b' hp hcmd
      rcases mem_apply hp with hp | ⟨y, hy, e⟩
      · exact A u v p n' d' pr' b' hp hcmd
      · rw [onPkt_out _ _ _ _ _ _ _ _ y hy, hcmd] at e
        cases e
        exact ⟨o, x⟩
  | take u v first admit dyn =>
    cases hp : pick first (s.link u v) with
    | none => rw [take_none hp]; exact A
    | some r =>
      obtain ⟨pre, p, post⟩ := r
      obtain ⟨hl, hpre, _, _⟩ := pick_split hp
      have hm : p ∈ s.link u v := by rw [hl]; exact List.mem_append_right _ (List.mem_cons_self ..)
      rw [take_some hp] at hs ⊢
      intro a b q n' d' pr' b' hq hcmd
      rcases mem_apply hq with hq | ⟨y, hy, e⟩
      · refine A a b q n' d' pr' b' ?_ hcmd
        have hq : q ∈ upd s.link u (upd (s.link u) v (pre ++ post)) a b := hq
        by_cases ha : a = u
        · subst ha; rw [upd_same] at hq
          by_cases hb : b = v
          · subst hb; rw [upd_same] at hq; rw [hl]
            rcases List.mem_append.1 hq with hq | hq
            · exact List.mem_append_left _ hq
            · exact List.mem_append_right _ (List.mem_cons_of_mem _ hq)
          · rw [upd_ne _ _ hb] at hq; exact hq
        · rw [upd_ne _ _ ha] at hq; exact hq
      · cases hpk : isPkt p.cmd with
        | false =>
          have T := K.taken h (admit := admit) (dyn := dyn) (s1 := { s with
            link := upd s.link u (upd (s.link u) v (pre ++ post))
            know := upd s.know v (s.know v ++ p.know) }) hp hpk (by
            intro hv
            have hs : ((Sys.apply _ v _).node 0).count true ≤ 100000000 := hs
            rw [apply_node] at hs
            subst hv
            rw [upd_same] at hs
            exact hs) rfl rfl
          have := T.quiet y hy
          rw [← e, hcmd] at this; cases this
        | true =>
          cases hc : p.cmd with
          | reg => rw [hc] at hpk; cases hpk
          | ack => rw [hc] at hpk; cases hpk
          | pkt n d pr b =>
            rw [hc] at hy
            have := onPkt_out _ _ _ _ _ _ _ _ y hy
            rw [this, hcmd] at e
            cases e
            exact A u v p _ _ _ _ hm hc

/-- a packet that came down belongs below -/
theorem Inv.below (h : net.Ok) (K : Inv net s) {u v n : Node} {d : Id} {pr : Bool} {b : Nat} {first : Bool}
    {pre post : List Parcel} {p : Parcel}
    (hp : pick first (s.link u v) = some (pre, p, post)) (hc : p.cmd = .pkt n d pr b) (hch : Child net u v) :
    Has s v d := by
  obtain ⟨hl, hpre, _, _⟩ := pick_split hp
  have L := K.two.led u v hch
  rw [hl] at L
  rcases L.at (d := d) (.inl ⟨n, pr, b, hc⟩) (fun q hq => by
    cases hk : isOk d q.cmd with
    | false => rfl
    | true => have := isOk_prio hk; rw [hpre q hq] at this; cases this) with a | a
  · exact a
  · rw [hc] at a; cases a

/-- where the commands go which a node sends -/
theorem Treated.targets {M : Nat} (F : Fits M s) (h : net.Ok) {s1 : Sys} (hn : s1.node = s.node) {v : Node} {c : Cmd} {o : Out} {st : Bool}
    (T : Treated net s1 v c o st) (hv : v < M)
    (horg : o.1.asked = (s.node v).asked ∧ ((s.node v).feds = [] → o.1.feds = [])) :
    (∀ x, x ∈ o.2.1 → x.1 < M) ∧ ∀ q, (after s1 v o).node q = (s1.setNode v o.1).node q := by
  have hF : ∀ q, ((after s1 v o).node q).asked = true ∨ ((after s1 v o).node q).feds ≠ [] → q < M := by
    intro q hq
    refine F.orgs q ?_
    rw [after_node] at hq
    by_cases e : q = v
    · subst e
      rw [setNode_same, horg.1] at hq
      exact hq.imp id (fun a b => a (horg.2 b))
    · rw [setNode_ne _ _ e, hn] at hq; exact hq
  refine ⟨?_, fun q => by rw [after_node]⟩
  have F' : ∀ {w : Who} {o' u : Node}, Trail net (after s1 v o) w o' u → u < M := by
    intro w o' u t
    refine Nat.lt_of_le_of_lt (t.1.le h) (hF o' ?_)
    cases w with
    | brk n => exact .inl t.2.1.2
    | fed nm =>
      obtain ⟨_, l, hl, _⟩ := t.2.1
      exact .inr (fun e => by rw [e] at hl; cases hl)
  intro x hx
  have hin : (⟨x.2, s1.know v⟩ : Parcel) ∈ (after s1 v o).link v x.1 := by
    unfold after
    rw [puts_link, if_pos rfl]
    exact List.mem_append_right _ (List.mem_map.2 ⟨x, List.mem_filter.2 ⟨hx, by simp⟩, rfl⟩)
  have g := T.inv.good v x.1 _ hin
  obtain ⟨a, c⟩ := x
  cases c with
  | pkt => have := T.quiet _ hx; cases this
  | reg =>
    obtain ⟨hc, _⟩ := g
    exact Nat.lt_trans (hc.lt h) hv
  | ack =>
    obtain ⟨_, ⟨o', t⟩, _⟩ := g
    exact F' t

end Verif.Routes
