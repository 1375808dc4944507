import Verif.Lemmas.ShutdownDrain
/-!
# C56: how a federation ends

Properties of the disconnection protocol; the words are those of `Props/ShutdownSpec`.
-/
namespace Verif.Down

variable {net : Net}

/-- who is above somebody who has left has left -/
theorem done_below (h : net.Ok) {s : Sys} (I : InvA net s) {v n : Node} (hv : Done net s v) (ha : Above net v n)
    (hn : n < net.size) : Done net s n := by
  induction ha with
  | refl => exact hv
  | @step n h0 _ ih =>
    have hlt := h.below n h0
    have hd := ih (by omega)
    have hk := kid_par h0 hn
    cases hp : net.kind (net.par n) with
    | fed => exact absurd hp (h.leaf n h0 hn)
    | core =>
      unfold Done at hd; rw [hp] at hd
      exact ((I.nodes _).gone n ((I.nodes _).core hp hd n hk)).2
    | broker =>
      unfold Done at hd; rw [hp] at hd
      exact ((I.nodes _).gone n ((allLocal_iff.1 hd).2 n hk)).2

/-- Nobody ends too early: when the main loop of a broker or core has ended, the applications of all the
federates below it have called finalize. -/
theorem C56_not_before (h : net.Ok) (oper : Bool) {es : List Ev} (hk : NoKill es) {v f : Node}
    (hv : net.IsNode v) (he : Ended ((Sys.start net oper).run net es) v) (hf : net.IsFed f) (ha : Above net v f) :
    Called ((Sys.start net oper).run net es) f := by
  have I := InvA.run h hk oper
  have hp : (((Sys.start net oper).run net es).node v).phase ≠ .running := by
    have : _ = Phase.stopped := he
    rw [this]; decide
  have hd : Done net ((Sys.start net oper).run net es) v := by
    cases hkv : net.kind v with
    | fed => exact absurd hkv hv.2
    | core => unfold Done; rw [hkv]; exact hp
    | broker => exact (I.nodes v).broker hkv hp
  have := done_below h I hd ha hf.1
  unfold Done at this; rw [hf.2] at this; exact this

/-- finalize returns only where it was called -/
theorem C56_returned_called (h : net.Ok) (oper : Bool) {es : List Ev} (hk : NoKill es) {f : Node} (hf : net.IsFed f)
    (hr : Returned ((Sys.start net oper).run net es) f) : Called ((Sys.start net oper).run net es) f := by
  have I := InvA.run h hk oper
  refine (I.nodes f).fed hf.2 ?_
  have : _ = Phase.stopped := hr
  rw [this]; decide

/-- When all have called finalize and nothing is on its way any more, the whole federation has ended:
every call has returned and the main loop of every broker and core is over. -/
theorem C56_all_end (h : net.Ok) (hF : net.Full) (oper : Bool) {es : List Ev} (hk : NoKill es)
    (hc : ∀ f, net.IsFed f → Called ((Sys.start net oper).run net es) f) (hq : Quiet ((Sys.start net oper).run net es)) :
    (∀ n, net.IsNode n → Ended ((Sys.start net oper).run net es) n) ∧
    (∀ f, net.IsFed f → Returned ((Sys.start net oper).run net es) f) := by
  have B := InvB.run h hk oper
  generalize (Sys.start net oper).run net es = s at *
  have no : ∀ {a b : Node} {c : Cmd}, ¬ c ∈ s.link a b := by
    intro a b c hin; rw [hq a b] at hin; cases hin
  -- everybody has left, from below
  have up : ∀ m n, net.size - n ≤ m → n < net.size → LeftAt net n (s.node n) := by
    intro m
    induction m with
    | zero => intro n h1 h2; omega
    | succ m ih =>
      intro n h1 h2
      have kids : net.kind n ≠ .fed → ∀ k, k ∈ net.kids n → (s.node n).gone k = true := by
        intro _ k hkn
        obtain ⟨a, b, c⟩ := mem_kids.1 hkn
        have hlt := h.below k b
        have := ih k (by omega) a
        rcases B.d k a b this with x | x
        · exact absurd x no
        · rw [c] at x; exact x
      unfold LeftAt
      cases hkn : net.kind n with
      | fed =>
        rcases B.f1 n ⟨h2, hkn⟩ (hc n ⟨h2, hkn⟩) with x | x | x
        · exact x
        · exact absurd x no
        · exact absurd x no
      | core =>
        exact B.c2 n hkn (hF n h2 (by rw [hkn]; decide)) (all_iff.2 (kids (by rw [hkn]; decide)))
      | broker =>
        exact allLocal_iff.2 ⟨hF n h2 (by rw [hkn]; decide), kids (by rw [hkn]; decide)⟩
  have hroot : (s.node 0).allLocal (net.kids 0) = true := by
    have := up net.size 0 (by omega) h.size
    unfold LeftAt at this; rw [h.rootKind] at this; exact this
  -- and everybody is told, from above
  have stop : ∀ {n}, Stopping s n → (s.node n).phase = .stopped := fun hs => hs.elim (fun x => absurd x no) id
  have down : ∀ m n, n ≤ m → n < net.size → (s.node n).phase = .stopped := by
    intro m
    induction m with
    | zero =>
      intro n hn hs
      have : n = 0 := by omega
      subst this
      exact stop (B.r1 hroot)
    | succ m ih =>
      intro n hn hs
      by_cases h0 : n = 0
      · subst h0; exact stop (B.r1 hroot)
      · have hlt := h.below n h0
        have hp := ih (net.par n) (by omega) (by omega)
        have hkn := kid_par h0 hs
        cases hpk : net.kind (net.par n) with
        | fed => exact absurd hpk (h.leaf n h0 hs)
        | core =>
          rcases B.c7 _ hpk (.inr hp) n hkn with x | x
          · exact absurd x no
          · exact x
        | broker =>
          have ha := B.b3 _ hpk (.inr hp) n hkn
          rcases B.a n ⟨hs, fun e => by have := (h.fed n h0 hs).1 e; rw [hpk] at this; cases this⟩ h0 ha with x | x
          · exact absurd x no
          · exact stop x
  exact ⟨fun n hn => down n n (Nat.le_refl n) hn.1, fun f hf => down f f (Nat.le_refl f) hf.1⟩

/-- Without the global disconnect option a federate does not wait for the others: when nothing is on its way any more,
every call of finalize has returned. -/
theorem C56_returns (h : net.Ok) (hg : ∀ n, net.glob n = false) (oper : Bool) {es : List Ev} (hk : NoKill es)
    (hq : Quiet ((Sys.start net oper).run net es)) {f : Node} (hf : net.IsFed f)
    (hc : Called ((Sys.start net oper).run net es) f) : Returned ((Sys.start net oper).run net es) f := by
  have B := InvB.run h hk oper
  generalize (Sys.start net oper).run net es = s at *
  have no : ∀ {a b : Node} {c : Cmd}, ¬ c ∈ s.link a b := by
    intro a b c hin; rw [hq a b] at hin; cases hin
  have stop : ∀ {n}, Stopping s n → (s.node n).phase = .stopped := fun hs => hs.elim (fun x => absurd x no) id
  -- whoever has left a broker has its confirmation
  have conf : ∀ m n, n ≤ m → n < net.size → n ≠ 0 → net.kind n ≠ .fed → (s.node (net.par n)).gone n = true →
      (s.node (net.par n)).acked n = true := by
    intro m
    induction m with
    | zero => intro n hn _ h0; omega
    | succ m ih =>
      intro n hn hs h0 hnf hgo
      have hlt := h.below n h0
      have hkn := kid_par h0 hs
      have hpk : net.kind (net.par n) = .broker := by
        cases hpk : net.kind (net.par n) with
        | fed => exact absurd hpk (h.leaf n h0 hs)
        | core => exact absurd ((h.fed n h0 hs).2 hpk) hnf
        | broker => rfl
      rcases B.r2 _ hpk (hg _) n hkn hgo with x | ⟨x0, x⟩
      · exact x
      · refine B.b3 _ hpk ?_ n hkn
        have hL : LeftAt net (net.par n) (s.node (net.par n)) := by unfold LeftAt; rw [hpk]; exact x
        rcases B.d _ (by omega) x0 hL with y | y
        · exact absurd y no
        · have hnode : net.IsNode (net.par n) := ⟨by omega, by rw [hpk]; decide⟩
          have := ih (net.par n) (by omega) (by omega) x0 hnode.2 y
          rcases B.a _ hnode x0 this with z | z
          · exact absurd z no
          · exact z
  have h0 : f ≠ 0 := by intro e; have := hf.2; rw [e, h.rootKind] at this; cases this
  have hpk := (h.fed f h0 hf.1).1 hf.2
  have hkf := kid_par h0 hf.1
  have hlt := h.below f h0
  have hfs := hf.1
  have hnode : net.IsNode (net.par f) := ⟨by omega, by rw [hpk]; decide⟩
  have hp0 : net.par f ≠ 0 := by intro e; rw [e, h.rootKind] at hpk; cases hpk
  have hL : (s.node f).phase ≠ .running := by
    rcases B.f1 f hf hc with x | x | x
    · exact x
    · exact absurd x no
    · exact absurd x no
  have hgone : (s.node (net.par f)).gone f = true := by
    rcases B.d f hf.1 h0 (by unfold LeftAt; rw [hf.2]; exact hL) with x | x
    · exact absurd x no
    · exact x
  rcases B.c5 _ hpk (hg _) f hkf hgone with x | x | x
  · exact absurd x no
  · exact x
  · have hgo : (s.node (net.par (net.par f))).gone (net.par f) = true := by
      rcases B.d _ hnode.1 hp0 (by unfold LeftAt; rw [hpk]; exact x) with y | y
      · exact absurd y no
      · exact y
    have ha := conf _ _ (Nat.le_refl _) hnode.1 hp0 hnode.2 hgo
    have hst : Stopping s (net.par f) := by
      rcases B.a _ hnode hp0 ha with y | y
      · exact absurd y no
      · exact y
    rcases B.c7 _ hpk hst f hkf with y | y
    · exact absurd y no
    · exact y

/-- everybody is below the root -/
theorem above_root (h : net.Ok) : ∀ m n, n ≤ m → Above net 0 n := by
  intro m
  induction m with
  | zero => intro n hn; have : n = 0 := by omega
            subst this; exact .refl
  | succ m ih =>
    intro n hn
    by_cases h0 : n = 0
    · subst h0; exact .refl
    · have := h.below n h0
      exact .step h0 (ih _ (by omega))

/-- With the global disconnect option, and when everybody got to the operating state, a call of finalize returns only when the
applications of all the federates have called finalize. -/
theorem C56_global (h : net.Ok) (hg : ∀ n, net.glob n = true) {es : List Ev} (hk : NoKill es) {f f' : Node}
    (hf : net.IsFed f) (hf' : net.IsFed f') (hr : Returned ((Sys.start net true).run net es) f) :
    Called ((Sys.start net true).run net es) f' := by
  have I := InvA.run h hk true
  have G := InvG.run h hg hk
  have hd : Done net ((Sys.start net true).run net es) 0 := by
    unfold Done; rw [h.rootKind]; exact G.fed f hf hr
  have := done_below h I hd (above_root h f' f' (Nat.le_refl _)) hf'.1
  unfold Done at this; rw [hf'.2] at this; exact this

theorem busy_bound (h : net.Ok) : ∀ (ts : List (Node × Node)) {s : Sys}, InvA net s → Busy net s ts →
    ts.length + energy net (s.takes net ts) ≤ energy net s
  | [], s, _, _ => by show 0 + energy net s ≤ _; omega
  | t :: ts, s, I, hb => by
    have h1 := energy_take h I hb.1
    have h2 := busy_bound h ts (I.onTake h t.1 t.2) hb.2
    have e : s.takes net (t :: ts) = (s.step net (.take t.1 t.2)).takes net ts := rfl
    rw [e, List.length_cons]
    omega

/-- The commands run out: from every state that can be reached only so many commands can be taken, whoever takes them in whatever
order. -/
theorem C56_drains (h : net.Ok) (oper : Bool) {es : List Ev} (hk : NoKill es) :
    ∃ B, ∀ ts, Busy net ((Sys.start net oper).run net es) ts → ts.length ≤ B :=
  ⟨energy net ((Sys.start net oper).run net es), fun ts hb => by
    have := busy_bound h ts (InvA.run h hk oper) hb; omega⟩

theorem busy_snoc : ∀ (ts : List (Node × Node)) {s : Sys} {t : Node × Node}, Busy net s ts → (s.takes net ts).link t.1 t.2 ≠ [] →
    Busy net s (ts ++ [t])
  | [], s, t, _, hl => ⟨hl, trivial⟩
  | x :: ts, s, t, hb, hl => ⟨hb.1, busy_snoc ts hb.2 hl⟩

theorem take_called (s : Sys) (u v f : Node) (hc : Called s f) : Called (s.step net (.take u v)) f := by
  cases hl : s.link u v with
  | nil => rw [take_nil hl]; exact hc
  | cons c cs =>
    rw [take_cons hl]
    unfold Called
    by_cases e : f = v
    · subst e
      rw [after_same]
      have key : ((s.node f).onCmd net f u c).1.called = (s.node f).called := by
        unfold NSt.onCmd
        split
        · rfl
        · split
          · exact fed_frame.1
          · by_cases hd : c = .disc
            · subst hd; exact core_disc.2.2.1
            · by_cases hh : c = .halt
              · subst hh
                unfold NSt.coreCmd
                simp only
                split
                · exact (hush_frame _ _).2.2.2
                · rfl
              · exact (core_frame hd hh).2.2
          · by_cases hd : c = .disc
            · subst hd; exact broker_disc.2.2.1
            · by_cases hh : c = .halt
              · subst hh
                unfold NSt.brokerCmd NSt.dismiss
                exact (hush_frame _ _).2.2.2
              · exact (broker_frame hd hh).2.1
      rw [key]; exact hc
    · rw [after_node, upd_ne _ _ e]; exact hc

theorem takes_called : ∀ (ts : List (Node × Node)) {s : Sys} {f : Node}, Called s f → Called (s.takes net ts) f
  | [], _, _, h => h
  | t :: ts, _, _, h => takes_called ts (take_called _ t.1 t.2 _ h)

/-- The federation ends: when all have called finalize, then however the commands are taken, after at most `B` of them none is
left, and when none is left every call has returned and the main loops of all the brokers and cores are over. -/
theorem C56_ends (h : net.Ok) (hF : net.Full) (oper : Bool) {es : List Ev} (hk : NoKill es)
    (hc : ∀ f, net.IsFed f → Called ((Sys.start net oper).run net es) f) :
    ∃ B, ∀ ts, Busy net ((Sys.start net oper).run net es) ts → ts.length ≤ B ∧
      ((∀ t, ¬ Busy net ((Sys.start net oper).run net es) (ts ++ [t])) →
        (∀ n, net.IsNode n → Ended (((Sys.start net oper).run net es).takes net ts) n) ∧
        (∀ f, net.IsFed f → Returned (((Sys.start net oper).run net es).takes net ts) f)) := by
  obtain ⟨B, hB⟩ := C56_drains h oper hk
  refine ⟨B, fun ts hb => ⟨hB ts hb, fun hmax => ?_⟩⟩
  have hrun : ((Sys.start net oper).run net es).takes net ts = (Sys.start net oper).run net (es ++ ts.map (fun t => .take t.1 t.2)) := by
    unfold Sys.takes Sys.run; rw [List.foldl_append]
  have hk' : NoKill (es ++ ts.map (fun t => Ev.take t.1 t.2)) := by
    intro n hn
    rcases List.mem_append.1 hn with hn | hn
    · exact hk n hn
    · obtain ⟨t, _, e⟩ := List.mem_map.1 hn; cases e
  have hq : Quiet (((Sys.start net oper).run net es).takes net ts) := by
    intro u v
    cases hl : (((Sys.start net oper).run net es).takes net ts).link u v with
    | nil => rfl
    | cons c cs => exact absurd (busy_snoc ts hb (t := (u, v)) (by rw [hl]; simp)) (hmax (u, v))
  have hc' : ∀ f, net.IsFed f → Called (((Sys.start net oper).run net es).takes net ts) f :=
    fun f hf => takes_called ts (hc f hf)
  rw [hrun] at hq hc' ⊢
  exact C56_all_end h hF oper hk' hc' hq

end Verif.Down
