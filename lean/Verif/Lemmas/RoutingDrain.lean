import Verif.Lemmas.RoutingCons
/-! Whatever is on its way arrives, for C55. -/
namespace Verif.Routes

variable {net : Net} {s : Sys}

/-- how far a command still has to go, at most -/
def wt (net : Net) (M : Nat) (u v : Node) (c : Cmd) : Nat :=
  if v ≠ 0 ∧ net.par v = u then 2 * (M - v) + 1
  else if isReg1 c = true then 2 * u + 2 * M + 2 else u + 2 * M + 2

theorem wt_down {M : Nat} {u v : Node} {c : Cmd} (h : Child net u v) : wt net M u v c = 2 * (M - v) + 1 := by
  unfold wt; rw [if_pos ⟨h.1, h.2⟩]

theorem wt_up (h : net.Ok) {M : Nat} {u v : Node} {c : Cmd} (hc : Child net v u) :
    wt net M u v c = if isReg1 c = true then 2 * u + 2 * M + 2 else u + 2 * M + 2 := by
  unfold wt; rw [if_neg (fun e => hc.asymm h ⟨e.1, e.2⟩)]

def wait (M : Nat) (v : Node) (s : Sys) : Nat := (s.node v).delayed.length * (2 * v + 2 * M + 3)

def measure (net : Net) (M : Nat) (s : Sys) : Nat :=
  total M (wt net M) s + sumTo M (fun v => wait M v s)

theorem pick_some {first : Bool} {l : List Parcel} (h : ∃ p ∈ l, first = true → p.cmd.prio = true) :
    ∃ r, pick first l = some r := by
  induction l with
  | nil => obtain ⟨p, hp, _⟩ := h; cases hp
  | cons q l ih =>
    unfold pick
    by_cases hq : (!first || q.cmd.prio) = true
    · rw [if_pos hq]; exact ⟨_, rfl⟩
    · rw [if_neg hq]
      obtain ⟨p, hp, hf⟩ := h
      rcases List.mem_cons.1 hp with e | hp
      · subst e
        exfalso; refine hq ?_
        cases first with
        | false => rfl
        | true => simp [hf rfl]
      · obtain ⟨r, hr⟩ := ih ⟨p, hp, hf⟩
        rw [hr]; exact ⟨_, rfl⟩

theorem sumOut_release {M : Nat} {v p : Node} {d : Id} (f : Node → Cmd → Nat) (W : Nat) (l : List Cmd)
    (hf : ∀ c, c ∈ l → f p (c.from d) ≤ W) : sumOut f (l.map (fun c => (p, c.from d))) ≤ l.length * W := by
  induction l with
  | nil => exact Nat.zero_le _
  | cons c l ih =>
    simp only [List.map_cons, sumOut, List.length_cons]
    have h1 := ih (fun x hx => hf x (List.mem_cons_of_mem _ hx))
    have h2 := hf c (List.mem_cons_self ..)
    rw [Nat.succ_mul]
    omega

theorem drains_step (h : net.Ok) (K : Inv net s) {M : Nat} (F : Fits M s) (e : Ev) (hm : e.moves s)
    (hs : Small (s.step net e)) :
    Fits M (s.step net e) ∧ measure net M (s.step net e) < measure net M s := by
  cases e with
  | connect => exact absurd hm id
  | join => exact absurd hm id
  | leave => exact absurd hm id
  | send => exact absurd hm id
  | take u v first admit dyn =>
    obtain ⟨⟨pre, p, post⟩, hp⟩ := pick_some hm
    rw [take_some hp] at hs ⊢
    obtain ⟨hl, hpre, _, _⟩ := pick_split hp
    have hmem : p ∈ s.link u v := by rw [hl]; exact List.mem_append_right _ (List.mem_cons_self ..)
    obtain ⟨s0, hs0⟩ : ∃ s0 : Sys, s0 = { s with
      link := upd s.link u (upd (s.link u) v (pre ++ post))
      know := upd s.know v (s.know v ++ p.know) } := ⟨_, rfl⟩
    rw [← hs0] at hs ⊢
    have hn0 : s0.node = s.node := by rw [hs0]
    have hl0 : s0.link = upd s.link u (upd (s.link u) v (pre ++ post)) := by rw [hs0]
    obtain ⟨huM, hvM⟩ := F.links u v (by rw [hl]; simp)
    have F0 : Fits M s0 := F.less hn0 (fun a b hab => by
      rw [hl0] at hab
      by_cases ha : a = u
      · subst ha; rw [upd_same] at hab
        by_cases hb : b = v
        · subst hb; rw [hl]; simp
        · rw [upd_ne _ _ hb] at hab; exact hab
      · rw [upd_ne _ _ ha] at hab; exact hab)
    have g := K.one.good u v p hmem
    obtain ⟨o, ho⟩ : ∃ o, o = (s.node v).onCmd net v u admit dyn p.cmd := ⟨_, rfl⟩
    have horg : o.1.1.asked = (s.node v).asked ∧ ((s.node v).feds = [] → o.1.1.feds = []) := by
      rw [ho]; exact onCmd_org ..
    rw [← ho] at hs ⊢
    have fin : (∀ x, x ∈ o.1.2.1 → x.1 < M) →
        sumOut (wt net M v) o.1.2.1 + o.1.1.delayed.length * (2 * v + 2 * M + 3) <
          wt net M u v p.cmd + (s.node v).delayed.length * (2 * v + 2 * M + 3) →
        Fits M (s0.apply v o) ∧ measure net M (s0.apply v o) < measure net M s := by
      intro ht hlt
      refine ⟨F0.apply hvM ht (by rw [hn0]; exact horg), ?_⟩
      unfold measure
      rw [total_apply hvM ht]
      have c2 := total_remove (f := wt net M) (M := M) huM hvM hl hl0
      have c3 := sumTo_one (n := M) (a := v) (g := fun x => wait M x s) (g' := fun x => wait M x (s0.apply v o)) hvM (by
        intro i hi
        unfold wait
        rw [apply_node, upd_ne _ _ hi, hn0])
      have c4 : wait M v (s0.apply v o) = o.1.1.delayed.length * (2 * v + 2 * M + 3) := by
        unfold wait; rw [apply_node, upd_same]
      have c5 : wait M v s = (s.node v).delayed.length * (2 * v + 2 * M + 3) := rfl
      rw [c4, c5] at c3
      omega
    cases hpk : isPkt p.cmd with
    | false =>
      have T := K.taken h (admit := admit) (dyn := dyn) (s1 := s0) hp hpk (by
        intro hv
        have hs : ((s0.apply v _).node 0).count true ≤ 100000000 := hs
        rw [apply_node] at hs
        subst hv
        rw [upd_same, ho] at hs
        exact hs) hn0 hl0
      rw [← ho] at T
      refine fin (T.targets F h hn0 hvM horg).1 ?_
      have sh := T.shape
      rw [hn0] at sh
      have hpos : 1 ≤ wt net M u v p.cmd := by
        unfold wt; split
        · omega
        · split <;> omega
      have hreg : isReg1 p.cmd = true → wt net M u v p.cmd = 2 * u + 2 * M + 2 ∧ v < u := by
        intro hr
        cases hc : p.cmd with
        | ack => rw [hc] at hr; cases hr
        | pkt => rw [hc] at hr; cases hr
        | reg src w re gr =>
          rw [hc] at g
          obtain ⟨hch, _⟩ := g
          exact ⟨by rw [wt_up h hch]; rfl, hch.lt h⟩
      have hother : isReg1 p.cmd = false → wt net M u v p.cmd = 2 * (M - v) + 1 := by
        intro hr
        cases hc : p.cmd with
        | reg => rw [hc] at hr; cases hr
        | pkt => rw [hc] at hpk; cases hpk
        | ack src d w ok =>
          rw [hc] at g
          obtain ⟨hch, _⟩ := g
          exact wt_down hch
      cases sh with
      | nothing h1 h2 => rw [h1, h2]; simp only [sumOut]; omega
      | down a y h1 h2 h3 h4 =>
        rw [h1, h2]
        simp only [sumOut]
        rw [wt_down h3]
        have hva := h3.lt h
        cases hr : isReg1 p.cmd with
        | true => have := hreg hr; omega
        | false => have := hother hr; omega
      | up y h1 h2 h3 h4 h5 =>
        rw [h1, h2]
        simp only [sumOut]
        rw [wt_up h ⟨h3, rfl⟩, if_pos h5]
        have := hreg h4; omega
      | keep y h1 h2 h3 h4 =>
        rw [h1, h2, List.length_append, Nat.add_mul]
        simp only [sumOut, List.length_singleton]
        have := hreg h4; omega
      | release d h1 h2 h3 =>
        have := sumOut_release (M := M) (v := v) (p := net.par v) (d := d) (wt net M v) (2 * v + 2 * M + 3)
          (s.node v).delayed (fun c _ => by
            rw [wt_up h ⟨h3, rfl⟩]; split <;> omega)
        rw [h1, h2]
        simp only [List.length_nil, Nat.zero_mul]
        omega
    | true =>
      cases hc : p.cmd with
      | reg => rw [hc] at hpk; cases hpk
      | ack => rw [hc] at hpk; cases hpk
      | pkt n d pr b =>
        rw [hc] at g
        have hd := g.2
        have ho' : o = ((s.node v).onPkt v (net.par v) (net.core v) n d pr b, false) := by
          rw [ho, hc]; rfl
        have hpos : 1 ≤ wt net M u v p.cmd := by
          unfold wt; split
          · omega
          · split <;> omega
        have hup : ¬ Child net u v → wt net M u v p.cmd = u + 2 * M + 2 ∧ v < u := by
          intro hn
          have hch := g.1.resolve_left hn
          exact ⟨by rw [wt_up h hch, hc]; rfl, hch.lt h⟩
        rcases K.packet' h (v := v) (n := n) (pr := pr) (b := b) hd with
            ⟨f, _, e⟩ | ⟨c, _, ht, hcc, e⟩ | ⟨hno, hv, e⟩ | ⟨_, _, e⟩ <;>
          rw [e] at ho'
        · refine fin (by rw [ho']; intro x hx; cases hx) ?_
          rw [ho']; simp only [sumOut]; omega
        · refine fin ?_ ?_
          · rw [ho']; intro x hx
            rw [List.mem_singleton] at hx; subst hx
            exact (F.table h K.one hd ht).2
          · rw [ho']; simp only [sumOut]
            rw [wt_down hcc]
            have := hcc.lt h
            by_cases hdn : Child net u v
            · rw [wt_down hdn]; omega
            · have := hup hdn; omega
        · have hdn : ¬ Child net u v := fun hdn => hno (K.below h hp hc hdn)
          have := hup hdn
          have hb := h.below v hv
          refine fin ?_ ?_
          · rw [ho']; intro x hx
            rw [List.mem_singleton] at hx; subst hx
            show net.par v < M
            omega
          · rw [ho']; simp only [sumOut]
            rw [wt_up h ⟨hv, rfl⟩]
            show (if isReg1 (.pkt n d pr b) = true then _ else _) + 0 + _ < _
            rw [if_neg (by intro e; cases e)]
            omega
        · refine fin (by rw [ho']; intro x hx; cases hx) ?_
          rw [ho']; simp only [sumOut]; omega

theorem drains_run (h : net.Ok) : ∀ (es : List Ev) (s : Sys) (M : Nat), Inv net s → Fits M s → Moving net s es →
    Small (s.run net es) → es.length ≤ measure net M s := by
  intro es
  induction es with
  | nil => intro s M _ _ _ _; exact Nat.zero_le _
  | cons e es ih =>
    intro s M K F hm hs
    have hs1 : Small (s.step net e) := Nat.le_trans (count_run es (s.step net e)) hs
    obtain ⟨F1, hlt⟩ := drains_step h K F e hm.1 hs1
    obtain ⟨K1, _⟩ := K.step h e
      (by intro n nm re g he; rw [he] at hm; exact absurd hm.1 id) hs1
    have := ih _ M K1 F1 hm.2 hs
    rw [List.length_cons]; omega

end Verif.Routes
