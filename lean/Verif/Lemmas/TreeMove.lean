import Verif.Lemmas.TreeInv
/-! One move of the tree. -/
namespace Verif
open Causal Causality Deps Fed TC

namespace Tree
open Route

/-! ### steps of coordinators that keep to the rules -/

theorem plain_same {a b : Fwd} (h1 : b.self = a.self) (h2 : b.out = a.out) : Plain a b := ⟨h1, [], by simp [h2], by simp⟩

/-- the fields a change of the dependencies leaves alone -/
def Kin (a b : Fwd) : Prop :=
  b.self = a.self ∧ b.out = a.out ∧ b.upstream = a.upstream ∧ b.downstream = a.downstream ∧ b.restrictive = a.restrictive ∧ b.hasDelayed = a.hasDelayed

theorem Kin.refl (a : Fwd) : Kin a a := ⟨rfl, rfl, rfl, rfl, rfl, rfl⟩
theorem Kin.trans {a b c : Fwd} (h : Kin a b) (h' : Kin b c) : Kin a c := by
  obtain ⟨a1, a2, a3, a4, a5, a6⟩ := h
  obtain ⟨b1, b2, b3, b4, b5, b6⟩ := h'
  exact ⟨b1.trans a1, b2.trans a2, b3.trans a3, b4.trans a4, b5.trans a5, b6.trans a6⟩

theorem kin_child (w : Fwd) (g : FedId) : Kin w (w.setAsChild g) := by
  unfold Fwd.setAsChild; split <;> exact ⟨rfl, rfl, rfl, rfl, rfl, rfl⟩
theorem kin_parent (w : Fwd) (g : FedId) : Kin w (w.setAsParent g) := by
  unfold Fwd.setAsParent
  split
  · exact .refl _
  · split
    · exact .refl _
    · exact ⟨rfl, rfl, rfl, rfl, rfl, rfl⟩

theorem kin_relate (w : Fwd) (cmd : Msg) : Kin w (w.relate cmd) := by
  unfold Fwd.relate
  dsimp only
  have h1 : Kin w (if cmd.child = true then w.setAsChild cmd.source else w) := by
    split
    · exact kin_child _ _
    · exact .refl _
  generalize (if cmd.child = true then w.setAsChild cmd.source else w) = v at h1
  have h2 : Kin v (if cmd.parent = true then v.setAsParent cmd.source else v) := by
    split
    · exact kin_parent _ _
    · exact .refl _
  generalize (if cmd.parent = true then v.setAsParent cmd.source else v) = u at h2
  split
  · exact (h1.trans h2).trans ⟨rfl, rfl, rfl, rfl, rfl, rfl⟩
  · exact h1.trans h2

theorem kin_change (w : Fwd) (cmd : Msg) : Kin w (w.changeDeps cmd).1 := by
  unfold Fwd.changeDeps Fwd.addDependency
  dsimp only
  split <;> exact ⟨rfl, rfl, rfl, rfl, rfl, rfl⟩

theorem kin_dependency (w : Fwd) (cmd : Msg) : Kin w (w.processDependencyUpdate cmd) := by
  unfold Fwd.processDependencyUpdate
  dsimp only
  split
  · exact (kin_change w cmd).trans (kin_relate _ _)
  · exact kin_change w cmd

theorem plain_dependency (a : Fwd) (cmd : Msg) : Plain a (a.processDependencyUpdate cmd) :=
  plain_same (kin_dependency a cmd).1 (kin_dependency a cmd).2.1

theorem plain_handle (a : Fwd) (cmd : Msg) : Plain a (a.handle cmd) := by
  cases hr : Fwd.rewiring cmd with
  | false =>
    refine (Fwd.act_handle (F := False) (X := 0) (k := .up) (g := cmd.source + 1) (c := 0) a cmd ?_ hr).plain
    intro e
    have e : (cmd.source : Int) = cmd.source + 1 := e
    omega
  | true =>
    have h := plain_dependency a cmd
    unfold Fwd.rewiring at hr
    unfold Fwd.handle Fwd.handleCore Fwd.handleBroker
    cases hc : cmd.action <;> rw [hc] at hr <;> first
      | (cases hr; done)
      | (dsimp only; split <;> exact h)

theorem Plain.trans {a b c : Fwd} (h : Plain a b) (h' : Plain b c) : Plain a c := by
  obtain ⟨h1, l, h2, h3⟩ := h
  obtain ⟨k1, l', k2, k3⟩ := h'
  refine ⟨k1.trans h1, l ++ l', by rw [k2, h2, List.append_assoc], ?_⟩
  intro p hp m hm
  rcases List.mem_append.mp hp with hp | hp
  · exact h3 p hp m hm
  · have := k3 p hp m hm; rw [h1] at this; exact this

theorem plain_disconnect (a : Fwd) : Plain a a.disconnect :=
  (Fwd.act_disconnect (F := False) (X := maxVal) (k := .up) (g := 0) (c := 0) a (Int.le_refl _)).plain

theorem plain_start (a : Fwd) : Plain a a.start := by
  have h0 : Fwd.Act False 0 .up 0 0 a { a with operating := true } := .of rfl rfl id rfl rfl rfl rfl rfl
  have h1 := ((h0.trans (Fwd.act_enteringExecMode _)).trans (Fwd.act_tryEnter _ false)).plain
  unfold Fwd.start
  dsimp only
  split
  · exact h1.trans (plain_disconnect _)
  · exact h1

variable {F : Prop} {hop : FedId → FedId → FedId} {W : Route} {A B : FedId} {limit : Int} {s : Tree}

/-! ### where commands come from -/

theorem head_within (h : Pair F hop W A B s) {u v : FedId} {m : Msg} {rest : List Parcel} (hq : s.chan u v = .cmd m :: rest)
    {q : Nat} (hl : q < W.len) (hu : u = W.node q) (hv : v = W.node (q + 1)) (ho : W.On q m) {X : Time} {i k : Nat}
    (ha : Active F W A B (s.take u v) X i k) (hi : i ≤ q) : Within F X m := by
  have b := h.all X i _ (active_take ha)
  by_cases e : i = q
  · subst e
    refine b.here 0 m ?_ (by rw [← hu, ← hv, hq]; rfl) ho
    unfold shift
    rw [if_pos ⟨hu.symm, hv.symm, by rw [hq]; simp⟩]
    omega
  · exact b.way q (by omega) hl m (by rw [← hu, ← hv, hq]; simp) ho

theorem arrive (hW : W.Ok hop A B) (h : Pair F hop W A B s) {u v : FedId} {m : Msg} {rest : List Parcel} (hc : s.chan u v = .cmd m :: rest)
    (hd : m.dest = v) {q : Nat} (h0 : 0 < q) (hl : q ≤ W.len) (hs : W.station q = true) (hn : W.node q = v) {X : Time} {i k : Nat}
    (ha : Active F W A B (s.take u v) X i k) (hi : i < q) : Speaks F (W.src (q - 1)) X m := by
  obtain ⟨hdp, hv, me, fit, reach⟩ := h.shape.chan u v m (by rw [hc]; simp)
  intro hsrc
  refine ⟨fun e => hdp (fit.err e), ?_⟩
  rcases fit.source with e | e | e
  · rw [← e, hsrc, hd, ← hn] at reach
    have hu := reach_arrive hW h0 hl hs reach (by rw [hn, ← hd]; rw [← hd] at hv; exact hv.symm)
    refine head_within h hc (q := q - 1) (by omega) hu (by rw [show q - 1 + 1 = q by omega]; exact hn.symm) ⟨hsrc, ?_⟩ ha (by omega)
    rw [hW.target (q - 1) (by omega), show q - 1 + 1 = q by omega, if_pos hs, hn, hd]
  · exact within_other (.inl (by unfold word; rw [e]))
  · exact within_other (.inl (by unfold word; rw [e]))

theorem relay (hW : W.Ok hop A B) (h : Pair F hop W A B s) {u v : FedId} {m : Msg} {rest : List Parcel} (hc : s.chan u v = .cmd m :: rest)
    (hd : m.dest ≠ v) {q : Nat} (hl : q < W.len) (hn : W.node q = v) (hn' : W.node (q + 1) = hop v m.dest) (ho : W.On q m) {X : Time} {i k : Nat}
    (ha : Active F W A B (s.take u v) X i k) (hi : i < q) : Within F X m := by
  obtain ⟨hdp, hv, me, fit, reach⟩ := h.shape.chan u v m (by rw [hc]; simp)
  rcases fit.source with e | e | e
  · rw [← e, ho.1, ho.2] at reach
    obtain ⟨h1, h2, h3⟩ := reach_relay hW hl reach (by rw [← ho.2, hn]; exact hv.symm) (by rw [hn, ← ho.2]; exact Ne.symm hd)
      (by rw [hn, ← ho.2]; exact hn'.symm)
    have hq : q - 1 + 1 = q := by omega
    refine head_within h hc (q := q - 1) (by omega) h3 (by rw [hq]; exact hn.symm) ⟨?_, ?_⟩ ha (by omega)
    · rw [ho.1]; unfold src; rw [← hq, seg_relay (by rw [hq]; exact h2), hq]
    · rw [hW.target (q - 1) (by omega), hq, if_neg (by simp [h2])]; exact ho.2
  · exact within_other (.inl (by unfold word; rw [e]))
  · exact within_other (.inl (by unfold word; rw [e]))

/-! ### the facts about a move that matter -/

structure MoveOk (F : Prop) (hop : FedId → FedId → FedId) (W : Route) (A B : FedId) (limit : Int) (s : Tree) (m : Tmove) : Prop where
  pair : Pair F hop W A B (s.step hop limit m).1
  ahead : ∀ X i k, Active F W A B (s.step hop limit m).1 X i k → ∃ Y j l, Y ≤ X ∧ Active F W A B s Y j l
  grant : ∀ T, (s.step hop limit m).2 = some (B, T) → ∀ X i k, Active F W A B (s.step hop limit m).1 X i k →
    ∃ o : FedOp, o.sane B ∧ returned ((s.fed B).step limit o) = some T ∧
    (∀ cmd, o = .msg cmd → cmd.action ≠ .forceTimeGrant ∧ arriving s m = some (B, cmd)) ∧
    opOk (Speaks F (W.src (W.len - 1)) X) o ∧ Table F (W.src (W.len - 1)) X (s.fed B) ∧ 0 ≤ X

theorem move_silent {m : Tmove} {s' : Tree} (hs : s.step hop limit m = (s', none)) (hp : Pair F hop W A B s')
    (ha : ∀ X i k, Active F W A B s' X i k → ∃ Y j l, Y ≤ X ∧ Active F W A B s Y j l) : MoveOk F hop W A B limit s m := by
  refine ⟨by rw [hs]; exact hp, by rw [hs]; exact ha, by rw [hs]; intro T hT; cases hT⟩

theorem move_same {m : Tmove} (h : Pair F hop W A B s) (hs : s.step hop limit m = (s, none)) : MoveOk F hop W A B limit s m :=
  move_silent hs h (fun X i k ha => ⟨X, i, k, Int.le_refl _, ha⟩)

/-- federate `i` takes a step from a state that differs from `s` at most in a parcel taken away -/
theorem move_fed (hW : W.Ok hop A B) {s0 : Tree} {m : Tmove} (h0 : Pair F hop W A B s0) (hfed : s0.fed = s.fed)
    (hah : ∀ X j k, Active F W A B s0 X j k → ∃ l, Active F W A B s X j l) {i : FedId} (hi : FedId.isFederate i = true) {o : FedOp} (ho : o.sane i)
    (hst : s.step hop limit m = s0.fedAct hop limit i o) (hcA : i = A → calm F (s.fed A) o)
    (hcB : ∀ cmd, o = .msg cmd → i = B → cmd.action ≠ .forceTimeGrant ∧ arriving s m = some (B, cmd))
    (hk : i = B → ∀ X j k, Active F W A B s0 X j k → opOk (Speaks F (W.src (W.len - 1)) X) o) : MoveOk F hop W A B limit s m := by
  have hret : ∀ T, (s0.fedAct hop limit i o).2 = some (B, T) → i = B ∧ returned ((s0.fed i).step limit o) = some T := by
    intro T hT
    unfold fedAct at hT
    dsimp only at hT
    cases hr : returned ((s0.fed i).step limit o) with
    | none => rw [hr] at hT; cases hT
    | some t => rw [hr] at hT; injection hT with e; exact ⟨congrArg Prod.fst e, congrArg some (congrArg Prod.snd e)⟩
  by_cases hiA : i = A
  · subst hiA
    obtain ⟨hp, hf, hd⟩ := pair_fed_A (limit := limit) hW h0 ho (by rw [hfed]; exact hcA rfl)
    refine ⟨by rw [hst]; exact hp, ?_, ?_⟩
    · rw [hst]
      intro X j k ha
      rcases ha with ⟨hj, b, hb⟩ | ⟨_, _, hl, hp, hX⟩
      · obtain ⟨l, hl⟩ := hah X j k (.inl ⟨hj, b, hd X j k b hj hb⟩)
        exact ⟨X, j, l, Int.le_refl _, hl⟩
      · obtain ⟨a1, a2, a3⟩ := hf hl hp
        obtain ⟨l, hl⟩ := hah _ 0 _ (.inr ⟨rfl, rfl, a1, a2, rfl⟩)
        exact ⟨_, 0, l, by rw [hX]; exact a3, hl⟩
    · intro T hT
      rw [hst] at hT
      exact absurd (hret T hT).1 hW.differ
  · refine ⟨by rw [hst]; exact pair_fed_other hW h0 hi hiA ho hk, ?_, ?_⟩
    · rw [hst]
      intro X j k ha
      obtain ⟨l, hl⟩ := hah X j k (active_fed_other hW hi hiA ha)
      exact ⟨X, j, l, Int.le_refl _, hl⟩
    · intro T hT X j k ha
      rw [hst] at hT ha
      obtain ⟨e, hr⟩ := hret T hT
      have ha' := active_fed_other hW hi hiA ha
      have hb := h0.all X j k ha'
      subst e
      have htab := hb.table
      rw [hW.last, hfed] at htab
      rw [hfed] at hr
      exact ⟨o, ho, hr, fun cmd e => hcB cmd e rfl, hk rfl X j k ha', htab, hb.pos⟩

/-- a coordinator takes a step from such a state -/
theorem move_fwd {s0 : Tree} {m : Tmove} (h0 : Pair F hop W A B s0)
    (hah : ∀ X j k, Active F W A B s0 X j k → ∃ l, Active F W A B s X j l) {n : FedId} (hn : FedId.isFederate n = false) {w : Fwd}
    (hst : s.step hop limit m = (s0.fwdAct n w, none)) (hun : Undelayed W (s.step hop limit m).1) (hp : Plain (s0.fwd n) w)
    (ha : ∀ q, 0 < q → q < W.len → W.station q = true → W.node q = n → ∀ X i k, Active F W A B s0 X i k → i < q →
      Fwd.Act F X (W.role q) (W.src (q - 1)) (W.dst q) (s0.fwd n) w) : MoveOk F hop W A B limit s m := by
  refine move_silent hst (pair_fwd h0 hn hp ha ?_) ?_
  · intro q h1 h2 h3 h4 h5 h6
    have := hun q h1 h2 h3 h5 h6
    rw [hst] at this
    dsimp only at this
    rw [fwd_fwd, if_pos h4] at this
    exact this
  · intro X j k hact
    obtain ⟨l, hl⟩ := hah X j k hact
    exact ⟨X, j, l, Int.le_refl _, hl⟩

/-- a command is handed to a node -/
theorem move_hand (hW : W.Ok hop A B) {s0 : Tree} {m : Tmove} (h0 : Pair F hop W A B s0) (hfed : s0.fed = s.fed)
    (hah : ∀ X j k, Active F W A B s0 X j k → ∃ l, Active F W A B s X j l) {n : FedId} {cmd : Msg}
    (hst : s.step hop limit m = s0.hand hop limit n cmd) (hun : Undelayed W (s.step hop limit m).1)
    (hf : FedId.isFederate n = true → cmd.sane n ∧ calm False (s.fed n) (.msg cmd)) (hr : AtStation W n → Fwd.rewiring cmd = false)
    (harr : arriving s m = some (n, cmd))
    (hk : ∀ q, 0 < q → q ≤ W.len → W.station q = true → W.node q = n → ∀ X j k, Active F W A B s0 X j k → j < q →
      Speaks F (W.src (q - 1)) X cmd) : MoveOk F hop W A B limit s m := by
  unfold hand at hst
  split at hst
  · rename_i hn
    obtain ⟨h1, h2⟩ := hf hn
    refine move_fed hW h0 hfed hah hn (o := .msg cmd) h1 hst (fun _ => h2) ?_ ?_
    · intro c e e'
      cases e
      exact ⟨h2.1, by rw [harr, e']⟩
    · intro e X j k ha
      exact hk W.len hW.long (Nat.le_refl _) hW.ends (by rw [hW.last, e]) X j k ha (ha.lt hW)
  · rename_i hn
    refine move_fwd h0 hah (by simpa using hn) hst hun (plain_handle _ _) ?_
    intro q h1 h2 h3 h4 X j k ha hj
    exact Fwd.act_handle _ _ (hk q h1 (Nat.le_of_lt h2) h3 h4 X j k ha hj) (hr ⟨q, h1, h2, h3, h4⟩)

theorem over_active (hW : W.Ok hop A B) (h : Over A B s) {X : Time} {i k : Nat} (ha : Active F W A B s X i k) : False := by
  rcases ha with ⟨_, b, hb⟩ | ⟨_, _, hl, _⟩
  · exact h.2 _ _ _ _ (List.mem_of_getElem? hb)
  · exact h.1 hl

theorem data_before {u v : FedId} {t : Time} {b : Bool} {rest : List Parcel} (h : Pair F hop W A B s)
    (hc : s.chan u v = .data t A B b :: rest) : ∃ i, i < W.len ∧ u = W.node i ∧ v = W.node (i + 1) ∧ Active F W A B s t i 0 := by
  obtain ⟨i, h1, h2, h3⟩ := h.shape.data u v t b (by rw [hc]; simp)
  exact ⟨i, h1, h2, h3, .inl ⟨h1, b, by rw [← h2, ← h3, hc]; rfl⟩⟩

theorem active_put_data {u v : FedId} {t : Time} {a b : FedId} {y : Bool} {X : Time} {i k : Nat}
    (h : Active F W A B (s.put u v (.data t a b y)) X i k) :
    (∃ l, Active F W A B s X i l) ∨ (a = A ∧ b = B ∧ X = t) := by
  rcases h with ⟨hi, x, hx⟩ | ⟨hi, hk, hl, hp, hX⟩
  · rcases put_at hx with hx | ⟨_, e, _, _⟩
    · exact .inl ⟨k, .inl ⟨hi, x, hx⟩⟩
    · cases e; exact .inr ⟨rfl, rfl, rfl⟩
  · exact .inl ⟨_, .inr ⟨hi, rfl, hl, hp, hX⟩⟩

theorem move_ok (hW : W.Ok hop A B) (h : Pair F hop W A B s) (m : Tmove) (hf : Fair F W A B s m) (hb : Binding F (s.fed A))
    (hun : Undelayed W (s.step hop limit m).1) : MoveOk F hop W A B limit s m := by
  cases m with
  | user i o =>
    obtain ⟨hu, ho, hc⟩ := hf
    cases hi : FedId.isFederate i with
    | false => exact move_same h (by simp only [step, hi, Bool.false_eq_true, if_false])
    | true =>
      have hnm : ∀ cmd, o ≠ .msg cmd := by intro cmd e; rw [e] at hu; cases hu
      refine move_fed hW (s0 := s) (o := o) h rfl (fun _ _ k x => ⟨k, x⟩) hi ho (by simp only [step, hi, if_true]) (fun e => ?_)
        (fun cmd e => absurd e (hnm cmd)) (fun _ X _ _ _ => ?_)
      · rw [← e]; exact calm_weaken hc (fun x => ⟨e, x⟩)
      · cases o <;> first | trivial | cases hu
  | env n cmd =>
    obtain ⟨h1, h2, h3⟩ := hf
    refine move_hand hW (s0 := s) h rfl (fun _ _ k x => ⟨k, x⟩) rfl hun h1 h2 rfl ?_
    intro q x y z e X j k ha hj
    rcases h3 with h3 | h3 | h3
    · exact speaks_silent h3
    · exact speaks_other (h3 (q - 1) (by omega))
    · exact (over_active hW h3 ha).elim
  | send i d t y =>
    cases hc : (FedId.isFederate i && Net.inControl (s.fed i)) with
    | false => exact move_same h (by simp only [step, hc, Bool.false_eq_true, if_false])
    | true =>
      simp only [Bool.and_eq_true] at hc
      have hst : s.step hop limit (.send i d t y) = (s.put i (hop i d) (.data (max t (Net.stampOf (s.fed i))) i d y), none) := by
        simp only [step, hc.1, hc.2, Bool.and_self, if_true]
      have hfl : i = A → (s.fed A).live ∧ Pol F (s.fed A) ∧ (s.fed A).floor ≤ max t (Net.stampOf (s.fed i)) := by
        intro e
        subst e
        have hc2 := hc.2
        unfold Net.inControl at hc2
        simp only [Bool.and_eq_true, decide_eq_true_eq, Bool.not_eq_true'] at hc2
        refine ⟨⟨hc2.2, .inr (.inr hc2.1.1)⟩, pol_of_binding (h.shape.inv i hc.1).1 hb, ?_⟩
        unfold Fed.floor Net.stampOf
        rw [if_pos hc2.1.1, if_pos hc2.1.2]
        omega
      refine move_silent hst (pair_put_data h ?_) ?_
      · intro e1 e2
        obtain ⟨a1, a2, a3⟩ := hfl e1
        subst e1 e2
        refine ⟨0, hW.long, hW.first.symm, hW.enter, ?_⟩
        intro j hj u1 u2
        have hj0 : j = 0 := by
          apply hW.once j 0 hj hW.long
          · rw [← u1, hW.first]
          · rw [← u2, hW.enter]
        subst hj0
        exact ⟨_, a3, h.all _ 0 _ (.inr ⟨rfl, rfl, a1, a2, rfl⟩)⟩
      · intro X j k ha
        rcases active_put_data ha with ⟨l, hl⟩ | ⟨e1, e2, e3⟩
        · exact ⟨X, j, l, Int.le_refl _, hl⟩
        · obtain ⟨a1, a2, a3⟩ := hfl e1
          exact ⟨_, 0, _, by rw [e3]; exact a3, .inr ⟨rfl, rfl, a1, a2, rfl⟩⟩
  | deliver u v noticed =>
    obtain ⟨ht, hr⟩ := hf
    cases hq : s.chan u v with
    | nil => exact move_same h (by simp only [step, hq])
    | cons x rest =>
      have hx : x.time ≤ maxVal := ht x (by rw [hq]; rfl)
      have hah : ∀ X j k, Active F W A B (s.take u v) X j k → ∃ l, Active F W A B s X j l := fun X j k ha => ⟨_, active_take ha⟩
      have htk : ∀ X j k, Active F W A B (s.take u v) X j k → ∃ Y j l, Y ≤ X ∧ Active F W A B s Y j l :=
        fun X j k ha => ⟨X, j, _, Int.le_refl _, active_take ha⟩
      have hp := pair_take h u v
      cases x with
      | cmd m =>
        obtain ⟨hdp, hv, me, fit, reach⟩ := h.shape.chan u v m (by rw [hq]; simp)
        by_cases hd : m.dest = v
        · have hst : s.step hop limit (.deliver u v noticed) = (s.take u v).hand hop limit v m := by simp only [step, hq, hd, if_true]
          refine move_hand hW hp rfl hah hst hun ?_ ?_ (by simp only [arriving, hq]) ?_
          · intro _
            refine ⟨⟨hx, fun hbad => ?_⟩, fit.force, fun hj => fit.init hj.1⟩
            have := fit.own hbad.1
            rw [hbad.2.2] at this
            cases this
          · intro hat
            exact hr hat m (by rw [hq]; rfl) hd
          · intro q h0 h1 h2 h3 X j k ha hj
            exact arrive hW h hq hd h0 h1 h2 h3 ha hj
        · cases hn : FedId.isFederate v with
          | true =>
            refine move_silent (s' := s.take u v) ?_ hp htk
            simp only [step, hq]
            rw [if_neg hd, hn, if_pos rfl]
          | false =>
            refine move_silent (s' := (s.take u v).put v (hop v m.dest) (.cmd m)) ?_ ?_ ?_
            · simp only [step, hq]
              rw [if_neg hd, hn, if_neg (by simp)]
            · refine pair_put_cmd hW hp hn hdp ⟨me, fit, ?_⟩ ?_
              · have := Reach.step reach (by rw [← hv]; exact Ne.symm hd)
                rw [← hv] at this
                exact this
              · intro q hl h1 h2 ho X i k ha hi
                exact relay hW h hq hd hl h1 h2 ho ha hi
            · intro X j k ha
              exact htk X j k (active_put_cmd hW (by intro e; rw [e, hW.sender] at hn; cases hn) ha)
      | data t a d y =>
        by_cases hd : d = v
        · cases hn : (noticed && FedId.isFederate v) with
          | false =>
            refine move_silent (s' := s.take u v) ?_ hp htk
            simp only [step, hq]
            rw [if_pos hd, hn, if_neg (by simp)]
          | true =>
            have hst : s.step hop limit (.deliver u v noticed) = (s.take u v).fedAct hop limit v
                (if y then .message { action := .sendMessage, source := a, dest := v, actionTime := t } else .value { action := .pub, source := a, dest := v, actionTime := t }) := by
              simp only [step, hq]
              rw [if_pos hd, hn, if_pos rfl]
            simp only [Bool.and_eq_true] at hn
            refine move_fed hW hp rfl hah hn.2 ?_ hst ?_ ?_ ?_
            · cases y <;> exact ⟨rfl, hx⟩
            · intro _; cases y <;> trivial
            · intro c e; cases y <;> cases e
            · intro e X j k ha
              cases y <;> exact speaks_silent rfl
        · cases hn : FedId.isFederate v with
          | true =>
            refine move_silent (s' := s.take u v) ?_ hp htk
            simp only [step, hq]
            rw [if_neg hd, hn, if_pos rfl]
          | false =>
            refine move_silent (s' := (s.take u v).put v (hop v d) (.data t a d y)) ?_ ?_ ?_
            · simp only [step, hq]
              rw [if_neg hd, hn, if_neg (by simp)]
            · refine pair_put_data hp ?_
              intro e1 e2
              subst e1 e2
              obtain ⟨i, h1, h2, h3, h4⟩ := data_before h hq
              have hil : i + 1 < W.len := by
                rcases Nat.lt_or_ge (i + 1) W.len with hlt | hge
                · exact hlt
                · have : i + 1 = W.len := by omega
                  rw [this, hW.last] at h3
                  exact absurd h3.symm hd
              obtain ⟨j, g1, g2, g3, g4⟩ := hW.data (i + 1) (by omega) hil
              refine ⟨j, g2, by rw [h3, g3], by rw [h3, g4], ?_⟩
              intro j' hj' u1 u2
              have : j' = j := hW.once j' j hj' g2 (by rw [← u1, h3, g3]) (by rw [← u2, h3, g4])
              subst this
              refine ⟨t, Int.le_refl _, ?_⟩
              have hbd := h.all t i 0 h4
              have hbd' : Bound F W (s.take u v) t i 0 := bound_take (by
                refine ⟨hbd.pos, ?_, hbd.way, hbd.pend, hbd.stop, hbd.table⟩
                intro n m hn hm ho
                unfold shift at hn
                split at hn
                · have hn0 : n = 0 := by omega
                  subst hn0
                  rw [← h2, ← h3, hq] at hm
                  cases hm
                · omega)
              exact hbd'.later (by omega) g2
            · intro X j k ha
              rcases active_put_data ha with ⟨l, hl⟩ | ⟨e1, e2, e3⟩
              · exact htk X j l hl
              · subst e1 e2 e3
                obtain ⟨i, _, _, _, h4⟩ := data_before h hq
                exact ⟨_, i, 0, Int.le_refl _, h4⟩
  | flush n =>
    cases hq : s.pend n with
    | nil => exact move_same h (by simp only [step, hq])
    | cons m rest =>
      obtain ⟨hn, fit, hd⟩ := h.shape.pend n m (by rw [hq]; simp)
      refine move_silent (s' := (s.unqueue n).put n (hop n m.dest) (.cmd m)) (by simp only [step, hq]) ?_ ?_
      · refine pair_put_cmd hW (pair_unqueue h n) hn hd ⟨n, fit, .base⟩ ?_
        intro q hl h1 h2 ho X i k ha hi
        have ha : Active F W A B s X i k := ha
        rcases fit.source with e | e | e
        · have hst := own_station hW hl (by omega) (by rw [← ho.1, e, h1])
          exact (h.all X i k ha).pend q hi hl hst m (by rw [h1, hq]; simp) ho.2
        · exact within_other (.inl (by unfold word; rw [e]))
        · exact within_other (.inl (by unfold word; rw [e]))
      · intro X j k ha
        exact ⟨X, j, k, Int.le_refl _, active_put_cmd hW (by intro e; rw [e, hW.sender] at hn; cases hn) ha⟩
  | start n =>
    cases hn : FedId.isFederate n with
    | true => exact move_same h (by simp only [step, hn, if_true])
    | false =>
      refine move_fwd (s0 := s) h (fun _ _ k x => ⟨k, x⟩) hn (by simp only [step, hn, Bool.false_eq_true, if_false]) hun (plain_start _) ?_
      intro q h1 h2 h3 h4 X j k ha hj
      exact Fwd.act_start _ (hf ⟨q, h1, h2, h3, h4⟩)
  | leave n =>
    cases hn : FedId.isFederate n with
    | true => exact move_same h (by simp only [step, hn, if_true])
    | false =>
      refine move_fwd (s0 := s) h (fun _ _ k x => ⟨k, x⟩) hn (by simp only [step, hn, Bool.false_eq_true, if_false]) hun (plain_disconnect _) ?_
      intro q h1 h2 h3 h4 X j k ha hj
      have st := (h.all X j k ha).stop q hj h2 h3
      have htab := st.told.table
      rw [h4] at htab
      obtain ⟨d, hd, e1, _, e2, e3⟩ := hf q h1 h2 h3 h4
      have := (htab d hd e1 e2).1
      exact Fwd.act_disconnect _ (Int.le_trans e3 this)

end Tree
end Verif
