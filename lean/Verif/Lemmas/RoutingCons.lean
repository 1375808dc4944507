import Verif.Lemmas.RoutingSum
/-! Nothing is lost, doubled or kept for ever, for C55. -/
namespace Verif.Routes

variable {net : Net} {s : Sys}

def Cmd.pack : Cmd → Option (Node × Id × Bool × Nat)
  | .pkt n d p b => some (n, d, p, b)
  | _ => none

def tally (k : Node × Id × Bool × Nat) : Node → Node → Cmd → Nat :=
  fun _ _ c => if c.pack = some k then 1 else 0

theorem tally_quiet (k : Node × Id × Bool × Nat) (u v : Node) {c : Cmd} (h : isPkt c = false) : tally k u v c = 0 := by
  cases c with
  | pkt => cases h
  | reg => rfl
  | ack => rfl

theorem sumOut_zero {f : Node → Cmd → Nat} {cs : List (Node × Cmd)} (h : ∀ c, c ∈ cs → f c.1 c.2 = 0) :
    sumOut f cs = 0 := by
  induction cs with
  | nil => rfl
  | cons c cs ih =>
    simp only [sumOut]
    rw [h c (List.mem_cons_self ..), ih (fun x hx => h x (List.mem_cons_of_mem _ hx))]

theorem Fits.apply {M : Nat} (F : Fits M s) {v : Node} {o : Out × Bool} (hv : v < M)
    (ht : ∀ x, x ∈ o.1.2.1 → x.1 < M)
    (horg : o.1.1.asked = (s.node v).asked ∧ ((s.node v).feds = [] → o.1.1.feds = [])) : Fits M (s.apply v o) := by
  refine ⟨fun a b hn => ?_, fun q hq => ?_⟩
  · rw [apply_after] at hn
    unfold after at hn
    rw [puts_link] at hn
    by_cases ha : a = v
    · subst ha
      rw [if_pos rfl] at hn
      by_cases he : s.link a b = []
      · refine ⟨hv, ?_⟩
        cases ho : outTo (upd s.know a (s.know a ++ fresh o.1.2.1) a) o.1.2.1 b with
        | nil =>
          exfalso
          refine hn ?_
          show s.link a b ++ _ = []
          rw [he]; exact ho
        | cons p l =>
          have : p ∈ outTo (upd s.know a (s.know a ++ fresh o.1.2.1) a) o.1.2.1 b := by rw [ho]; exact List.mem_cons_self ..
          obtain ⟨x, hx, _⟩ := List.mem_map.1 this
          obtain ⟨h1, h2⟩ := List.mem_filter.1 hx
          have h2 : x.1 = b := by simpa using h2
          rw [← h2]; exact ht x h1
      · exact F.links a b he
    · rw [if_neg ha] at hn; exact F.links a b hn
  · refine F.orgs q ?_
    rw [apply_node] at hq
    by_cases e : q = v
    · subst e
      rw [upd_same, horg.1] at hq
      exact hq.imp id (fun a b => a (horg.2 b))
    · rw [upd_ne _ _ e] at hq; exact hq

theorem Fits.less {M : Nat} (F : Fits M s) {s0 : Sys} (hn : s0.node = s.node)
    (hl : ∀ a b, s0.link a b ≠ [] → s.link a b ≠ []) : Fits M s0 :=
  ⟨fun a b e => F.links a b (hl a b e), fun o e => F.orgs o (by rw [← hn]; exact e)⟩

/-- everything sent has arrived or is on its way -/
def Cons (s : Sys) : Prop := ∃ M0, Fits M0 s ∧ ∀ M, M0 ≤ M → ∀ k,
  (s.got.map Got.pack).count k + total M (tally k) s = (s.sent.map Sent.pack).count k

theorem bound (cs : List (Node × Cmd)) : ∃ B, ∀ c, c ∈ cs → c.1 < B := by
  induction cs with
  | nil => exact ⟨0, fun c hc => by cases hc⟩
  | cons c cs ih =>
    obtain ⟨B, hB⟩ := ih
    refine ⟨max B (c.1 + 1), fun x hx => ?_⟩
    rcases List.mem_cons.1 hx with e | hx
    · subst e; omega
    · have := hB x hx; omega

theorem apply_sent (s : Sys) (v : Node) (o : Out × Bool) : (s.apply v o).sent = s.sent := by
  rw [apply_after]; unfold after; rw [puts_sent]; rfl

theorem apply_got (s : Sys) (v : Node) (o : Out × Bool) : (s.apply v o).got = s.got ++ o.1.2.2 := by
  rw [apply_after]; unfold after; rw [puts_got]; rfl

/-- an announcement or the like -/
theorem Cons.soft (C : Cons s) {v p : Node} {x : NodeSt} {c : Cmd} (hc : isPkt c = false) {s' : Sys}
    (hs : s' = (s.setNode v x).put v p c) : Cons s' := by
  subst hs
  obtain ⟨M0, F, C⟩ := C
  refine ⟨max M0 (max (v + 1) (p + 1)), ⟨fun a b hn => ?_, fun q hq => ?_⟩, fun M hM k => ?_⟩
  · rw [put_link] at hn
    by_cases e : a = v ∧ b = p
    · obtain ⟨rfl, rfl⟩ := e; omega
    · rw [if_neg e] at hn
      have := F.links a b hn; omega
  · by_cases e : q = v
    · subst e; omega
    · rw [put_node, setNode_ne _ _ e] at hq
      have := F.orgs q hq; omega
  · rw [total_put (by omega) (by omega), tally_quiet k v p hc]
    exact C M (by omega) k

theorem Cons.end (C : Cons s) {v : Node} {x : NodeSt} : Cons (s.setNode v x) := by
  obtain ⟨M0, F, C⟩ := C
  refine ⟨max M0 (v + 1), ⟨fun a b hn => ?_, fun q hq => ?_⟩, fun M hM k => ?_⟩
  · have := F.links a b hn; omega
  · by_cases e : q = v
    · subst e; omega
    · rw [setNode_ne _ _ e] at hq
      have := F.orgs q hq; omega
  · exact C M (by omega) k

/-- the effect of a packet's treatment on the count -/
theorem packetCount (h : net.Ok) (K : Inv net s) {v n o : Node} {d : Id} {pr : Bool} {b : Nat} (x : Owner net s d o)
    (k : Node × Id × Bool × Nat) :
    (((s.node v).onPkt v (net.par v) (net.core v) n d pr b).2.2.map Got.pack).count k +
      sumOut (tally k v) ((s.node v).onPkt v (net.par v) (net.core v) n d pr b).2.1 =
      if (n, d, pr, b) = k then 1 else 0 := by
  rcases K.packet h (v := v) (n := n) (pr := pr) (b := b) x with ⟨f, _, e⟩ | ⟨c, _, _, _, e⟩ | ⟨_, _, e⟩ <;> rw [e]
  · show List.count k [(n, d, pr, b)] + 0 = _
    rw [List.count_singleton]
    by_cases hk : (n, d, pr, b) = k
    · rw [hk]; simp
    · rw [if_neg hk]; simp [hk]
  · show List.count k [] + (tally k v c (.pkt n d pr b) + 0) = _
    simp [tally, Cmd.pack]
  · show List.count k [] + (tally k v _ (.pkt n d pr b) + 0) = _
    simp [tally, Cmd.pack]

theorem Cons.step (h : net.Ok) (K : Inv net s) (A : Addr net s) (C : Cons s) (e : Ev)
    (had : ∀ n d p b, e = .send n d p b → Given s d)
    (hs : Small (s.step net e)) : Cons (s.step net e) := by
  cases e with
  | connect n =>
    unfold Sys.step; simp only
    split
    · exact C
    · exact C.soft (c := .reg none (.brk n) false 0) rfl rfl
  | join n nm re g =>
    unfold Sys.step; simp only
    split
    · exact C.soft (x := { s.node n with feds := (s.node n).feds ++ [⟨nm, none, re, false⟩] }) rfl rfl
    · split
      · exact C.soft (x := { s.node n with
          feds := (s.node n).feds.map (fun l => if l.name = nm then { l with done := false } else l) }) rfl rfl
      · exact C
    · exact C
  | leave n nm =>
    unfold Sys.step; simp only
    exact C.end (x := { s.node n with
      feds := (s.node n).feds.map (fun l => if l.name = nm ∧ l.id.isSome then { l with done := true } else l) })
  | send n d p b =>
    obtain ⟨o, x⟩ := K.one.given h (had n d p b rfl)
    have hd := K.one.ownerBig x
    unfold Sys.step; simp only
    rw [if_neg (by unfold parentId; exact hd)]
    obtain ⟨M0, F, C⟩ := C
    obtain ⟨B, hB⟩ := bound ((s.node n).onPkt n (net.par n) (net.core n) n d p b).2.1
    have F' : Fits (max M0 (max B (n + 1))) ({ s with sent := s.sent ++ [⟨n, d, p, b⟩] } : Sys) :=
      (F.mono (by omega)).less rfl (fun _ _ h => h)
    refine ⟨max M0 (max B (n + 1)), F'.apply (by omega) ?_ ?_, fun M hM k => ?_⟩
    · intro x hx; have := hB x hx; omega
    · simp only; rw [onPkt_node]; exact ⟨rfl, id⟩
    · rw [total_apply (by omega) (fun x hx => by have := hB x hx; omega), apply_got, apply_sent]
      simp only [List.map_append, List.count_append]
      have c1 := C M (by omega) k
      have c2 := packetCount h K (v := n) (n := n) (pr := p) (b := b) x k
      have c3 : total M (tally k) ({ s with sent := s.sent ++ [⟨n, d, p, b⟩] } : Sys) = total M (tally k) s :=
        total_links rfl
      have c4 : List.count k (List.map Sent.pack [⟨n, d, p, b⟩]) = if (n, d, p, b) = k then 1 else 0 := by
        show List.count k [(n, d, p, b)] = _
        rw [List.count_singleton]
        by_cases hk : (n, d, p, b) = k
        · rw [hk]; simp
        · rw [if_neg hk]; simp [hk]
      rw [c3, c4]
      omega
  | take u v first admit dyn =>
    cases hp : pick first (s.link u v) with
    | none => rw [take_none hp]; exact C
    | some r =>
      obtain ⟨pre, p, post⟩ := r
      rw [take_some hp] at hs ⊢
      obtain ⟨hl, hpre, _, _⟩ := pick_split hp
      have hm : p ∈ s.link u v := by rw [hl]; exact List.mem_append_right _ (List.mem_cons_self ..)
      obtain ⟨s0, hs0⟩ : ∃ s0 : Sys, s0 = { s with
        link := upd s.link u (upd (s.link u) v (pre ++ post))
        know := upd s.know v (s.know v ++ p.know) } := ⟨_, rfl⟩
      rw [← hs0] at hs ⊢
      have hn0 : s0.node = s.node := by rw [hs0]
      have hl0 : s0.link = upd s.link u (upd (s.link u) v (pre ++ post)) := by rw [hs0]
      obtain ⟨M0, F, C⟩ := C
      obtain ⟨huM, hvM⟩ := F.links u v (by rw [hl]; simp)
      obtain ⟨B, hB⟩ := bound ((s.node v).onCmd net v u admit dyn p.cmd).1.2.1
      have F0 : Fits (max M0 B) s0 := (F.mono (by omega)).less hn0 (fun a b hab => by
        rw [hl0] at hab
        by_cases ha : a = u
        · subst ha; rw [upd_same] at hab
          by_cases hb : b = v
          · subst hb; rw [hl]; simp
          · rw [upd_ne _ _ hb] at hab; exact hab
        · rw [upd_ne _ _ ha] at hab; exact hab)
      refine ⟨max M0 B, F0.apply (by omega) (fun x hx => by have := hB x hx; omega) ?_, fun M hM k => ?_⟩
      · rw [hn0]; exact onCmd_org ..
      · rw [total_apply (by omega) (fun x hx => by have := hB x hx; omega), apply_got, apply_sent]
        have c1 := C M (by omega) k
        have c2 := total_remove (f := tally k) (M := M) (u := u) (v := v) (by omega) (by omega) hl hl0
        have hg : s0.got = s.got := by rw [hs0]
        have hse : s0.sent = s.sent := by rw [hs0]
        rw [hg, hse, List.map_append, List.count_append]
        suffices ((((s.node v).onCmd net v u admit dyn p.cmd).1.2.2.map Got.pack).count k +
            sumOut (tally k v) ((s.node v).onCmd net v u admit dyn p.cmd).1.2.1 = tally k u v p.cmd) by omega
        cases hpk : isPkt p.cmd with
        | false =>
          have T := K.taken h (admit := admit) (dyn := dyn) (s1 := s0) hp hpk (by
            intro hv
            have hs : ((s0.apply v _).node 0).count true ≤ 100000000 := hs
            rw [apply_node] at hs
            subst hv
            rw [upd_same] at hs
            exact hs) hn0 hl0
          rw [T.got, sumOut_zero (fun x hx => tally_quiet k _ _ (T.quiet x hx)), tally_quiet k _ _ hpk]; rfl
        | true =>
          cases hc : p.cmd with
          | reg => rw [hc] at hpk; cases hpk
          | ack => rw [hc] at hpk; cases hpk
          | pkt n d pr b =>
            obtain ⟨o, x⟩ := A u v p n d pr b hm hc
            refine (packetCount h K x k).trans ?_
            simp [tally, Cmd.pack]

theorem Cons.run (h : net.Ok) : ∀ (es : List Ev) (s : Sys), Inv net s → Addr net s → Cons s → NoReentry es → Addressed net s es →
    Small (s.run net es) → Cons (s.run net es) := by
  intro es
  induction es with
  | nil => intro s _ _ C _ _ _; exact C
  | cons e es ih =>
    intro s K A C hr ha hs
    have hre : ∀ n nm re g, e = .join n nm re g → re = false :=
      fun n nm re g he => hr n nm re g (by rw [← he]; exact List.mem_cons_self ..)
    have hs1 : Small (s.step net e) := Nat.le_trans (count_run es (s.step net e)) hs
    obtain ⟨K1, E1⟩ := K.step h e hre hs1
    exact ih _ K1 (A.step h K e hre ha.1 hs1) (C.step h K A e ha.1 hs1) (fun n nm re g hm => hr n nm re g (List.mem_cons_of_mem _ hm)) ha.2 hs

theorem total_empty {M : Nat} {f : Node → Node → Cmd → Nat} (h : Quiet s) : total M f s = 0 := by
  refine sumTo_zero fun u _ => sumTo_zero fun v _ => ?_
  rw [h u v]; rfl

theorem Cons.start : Cons Sys.start := by
  refine ⟨0, ⟨fun u v hn => absurd rfl hn, fun o ho => ?_⟩, fun M _ k => ?_⟩
  · unfold Sys.start at ho
    simp only at ho
    split at ho <;> simp at ho
  · rw [total_empty (fun _ _ => rfl)]; rfl

end Verif.Routes
