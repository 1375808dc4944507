import Verif.Lemmas.TreeMove
/-!
# C49: nothing arrives in a federate's past in a tree of cores and brokers

The statement of C06 when the federates are not connected directly: commands travel over cores and brokers, whose
coordinators combine what they hear from many and pass on the result, and messages take the same links, in any
interleaving.
-/
namespace Verif
open Causal Causality Deps Fed TC

namespace Tree
open Route

/-! ### before the federation starts -/

/-- nothing has happened yet but the dependencies of cores and brokers being made -/
structure Wiring (F : Prop) (f : FedId → Fed) (r : FedId → Bool) (s : Tree) : Prop where
  fed : s.fed = f
  chan : ∀ u v, s.chan u v = []
  pend : ∀ n, s.pend n = []
  self : ∀ n, (s.fwd n).self = n
  up : ∀ n, (s.fwd n).upstream = {}
  down : ∀ n, (s.fwd n).downstream = {}
  policy : ∀ n, (s.fwd n).restrictive = r n
  quiet : ∀ n g, g ≠ n → Each (Q F g 0 0) (s.fwd n).deps

theorem quiet_dependency {F : Prop} {w : Fwd} {g : FedId} (hg : g ≠ w.self) (h : Each (Q F g 0 0) w.deps) (cmd : Msg) (hr : Fwd.rewiring cmd = true) :
    Each (Q F g 0 0) (w.processDependencyUpdate cmd).deps := by
  have K := kept_Q (F := F) (A := g) (B := w.self) hg (X := 0) (Y := 0) (Int.le_refl _)
  have hadd : Each (Q F g 0 0) (w.addDependency cmd.source).1.deps := by
    unfold Fwd.addDependency
    dsimp only
    split
    · exact (h.addDependency K cmd.source).modify _ _ (fun d hd _ => hd)
    · exact h.addDependency K cmd.source
  have h1 : Each (Q F g 0 0) (w.changeDeps cmd).1.deps := by
    unfold Fwd.changeDeps
    unfold Fwd.rewiring at hr
    cases hc : cmd.action <;> rw [hc] at hr <;> first | (cases hr; done) | skip
    · exact hadd
    · exact h.removeDependency K _
    · exact h.addDependent K _
    · exact h.removeDependent K _
    · exact hadd.addDependent K _
    · exact (h.removeDependency K _).removeDependent K _
  have hconn : ∀ {v : Fwd} (c : Conn), Each (Q F g 0 0) v.deps → Each (Q F g 0 0) (v.deps.modify cmd.source (fun d => { d with connection := c })) :=
    fun c hv => hv.modify _ _ (fun d hd _ => hd)
  unfold Fwd.processDependencyUpdate
  dsimp only
  split
  · generalize (w.changeDeps cmd).1 = v at h1
    unfold Fwd.relate
    dsimp only
    have h2 : Each (Q F g 0 0) (if cmd.child = true then v.setAsChild cmd.source else v).deps := by
      unfold Fwd.setAsChild
      split
      · split
        · exact h1
        · exact hconn _ h1
      · exact h1
    generalize (if cmd.child = true then v.setAsChild cmd.source else v) = u at h2
    have h3 : Each (Q F g 0 0) (if cmd.parent = true then u.setAsParent cmd.source else u).deps := by
      unfold Fwd.setAsParent
      split
      · split
        · exact h2
        · split
          · exact h2
          · exact hconn _ h2
      · exact h2
    generalize (if cmd.parent = true then u.setAsParent cmd.source else u) = x at h3
    split
    · exact h3.modify _ _ (fun d hd _ => hd)
    · exact h3
  · exact h1

theorem handle_rewiring (w : Fwd) (cmd : Msg) (hr : Fwd.rewiring cmd = true) : w.handle cmd = w.processDependencyUpdate cmd := by
  unfold Fwd.rewiring at hr
  unfold Fwd.handle Fwd.handleCore Fwd.handleBroker
  cases hc : cmd.action <;> rw [hc] at hr <;> first
    | (cases hr; done)
    | (dsimp only; split <;> rfl)

theorem wiring_step {F : Prop} {f : FedId → Fed} {r : FedId → Bool} {hop : FedId → FedId → FedId} {limit : Int} {s : Tree}
    (h : Wiring F f r s) (m : Tmove) (hm : wiring m = true) : Wiring F f r (s.step hop limit m).1 := by
  cases m with
  | env n cmd =>
    simp only [wiring, Bool.and_eq_true, Bool.not_eq_true'] at hm
    have hst : (s.step hop limit (.env n cmd)).1 = s.fwdAct n ((s.fwd n).processDependencyUpdate cmd) := by
      simp only [step, hand, hm.1, Bool.false_eq_true, if_false, handle_rewiring _ _ hm.2]
    rw [hst]
    obtain ⟨k1, k2, k3, k4, k5, _⟩ := kin_dependency (s.fwd n) cmd
    refine ⟨h.fed, h.chan, ?_, ?_, ?_, ?_, ?_, ?_⟩
    · intro k
      rw [fwd_pend, k2]
      split
      · rw [h.pend k]; simp [fresh]
      · exact h.pend k
    · intro k; rw [fwd_fwd]; split
      · rename_i e; rw [k1, e]; exact h.self n
      · exact h.self k
    · intro k; rw [fwd_fwd]; split
      · rw [k3]; exact h.up n
      · exact h.up k
    · intro k; rw [fwd_fwd]; split
      · rw [k4]; exact h.down n
      · exact h.down k
    · intro k; rw [fwd_fwd]; split
      · rename_i e; rw [k5, e]; exact h.policy n
      · exact h.policy k
    · intro k g hg; rw [fwd_fwd]; split
      · rename_i e
        exact quiet_dependency (by rw [h.self n, ← e]; exact hg) (h.quiet n g (by rw [← e]; exact hg)) cmd hm.2
      · exact h.quiet k g hg
  | _ => cases hm

theorem run_append (hop : FedId → FedId → FedId) (limit : Int) (s : Tree) (a b : List Tmove) :
    s.run hop limit (a ++ b) = (s.run hop limit a).run hop limit b := by
  unfold Tree.run; rw [List.foldl_append]

theorem wiring_run {F : Prop} {f : FedId → Fed} {r : FedId → Bool} {hop : FedId → FedId → FedId} {limit : Int} {s : Tree}
    (h : Wiring F f r s) (ms : List Tmove) (hm : ∀ m ∈ ms, wiring m = true) : Wiring F f r (s.run hop limit ms) := by
  induction ms generalizing s with
  | nil => exact h
  | cons m ms ih => exact ih (wiring_step h m (hm m (by simp))) (fun x hx => hm x (by simp [hx]))

theorem wiring_start (F : Prop) (ok ng gt : FedId → Bool) (core restr : FedId → Bool) :
    Wiring F (fun i => Fed.initial i (ok i) (ng i) (gt i)) restr (Tree.start ok ng gt core restr) :=
  ⟨rfl, fun _ _ => rfl, fun _ => rfl, fun _ => rfl, fun _ => rfl, fun _ => rfl, fun _ => rfl, fun _ _ _ d hd => (nomatch hd)⟩

theorem ok_initial (F : Prop) (i : FedId) (a b c : Bool) : Ok F (Fed.initial i a b c) := by
  intro _ _
  refine ⟨rfl, ⟨by simp [Fed.initial, Fed.floor], fun _ => by simp [Fed.initial, Fed.floor], by simp [Fed.initial]⟩, fun _ => rfl, ?_, ?_, ?_⟩
  · intro h; cases h
  · simp [Fed.initial, Fed.floor]
  · intro h; cases h

theorem pair_wired {F : Prop} {hop : FedId → FedId → FedId} {W : Route} {A B : FedId} {s : Tree} (hW : W.Ok hop A B) (ok ng gt r : FedId → Bool)
    (h : Wiring F (fun i => Fed.initial i (ok i) (ng i) (gt i)) r s) (hk : W.Knows s)
    (hr : ∀ q, 0 < q → q < W.len → W.station q = true → r (W.node q) = true ∨ F) : Pair F hop W A B s := by
  have hne : ∀ i, FedId.isFederate i = true → i ≠ parentBroker := by intro i hi e; rw [e] at hi; revert hi; decide
  refine ⟨⟨?_, h.self, ?_, ?_, ?_⟩, ?_, ?_⟩
  · intro i hi; rw [h.fed]; exact ⟨initial_inv i _ _ _ (hne i hi), rfl⟩
  · intro u v m hm; rw [h.chan] at hm; cases hm
  · intro n m hm; rw [h.pend] at hm; cases hm
  · intro u v t b hm; rw [h.chan] at hm; cases hm
  · rw [h.fed]; exact ok_initial F A _ _ _
  · intro X i k ha
    have hX : X = 0 := by
      rcases ha with ⟨_, b, hb⟩ | ⟨_, _, _, _, hX⟩
      · rw [h.chan] at hb; cases hb
      · rw [hX, h.fed]; simp [Fed.initial, Fed.floor]
    subst hX
    refine ⟨Int.le_refl _, ?_, ?_, ?_, ?_, ?_⟩
    · intro n m _ hm; rw [h.chan] at hm; simp at hm
    · intro q _ _ m hm; rw [h.chan] at hm; cases hm
    · intro q _ _ _ m hm; rw [h.pend] at hm; cases hm
    · intro q hi hq hs
      have hw := hk q (by omega) hq hs
      refine ⟨hw, ⟨Int.le_refl _, h.quiet _ _ (by have := hw.self; rw [h.self] at this; exact this), ?_⟩, by rw [h.policy]; exact hr q (by omega) hq hs⟩
      have hlow : Fwd.Low F 0 ({} : TimeData) := ⟨by decide, fun _ => by decide⟩
      split
      · rw [h.up]; exact hlow
      · rw [h.down]; exact hlow
    · intro _
      rw [h.fed]
      intro d hd
      cases hd

/-! ### histories -/

theorem legal_append {F : Prop} {W : Route} {A B : FedId} {hop : FedId → FedId → FedId} {limit : Int} {s : Tree} {a b : List Tmove}
    (h : Legal F W A B hop limit s (a ++ b)) : Legal F W A B hop limit s a ∧ Legal F W A B hop limit (s.run hop limit a) b := by
  induction a generalizing s with
  | nil => exact ⟨trivial, h⟩
  | cons m ms ih =>
    obtain ⟨h1, h2⟩ := ih h.2.2.2
    exact ⟨⟨h.1, h.2.1, h.2.2.1, h1⟩, h2⟩

theorem pair_run {F : Prop} {W : Route} {A B : FedId} {hop : FedId → FedId → FedId} {limit : Int} {s : Tree} (hW : W.Ok hop A B) {ms : List Tmove}
    (h : Legal F W A B hop limit s ms) (hp : Pair F hop W A B s) : Pair F hop W A B (s.run hop limit ms) := by
  induction ms generalizing s with
  | nil => exact hp
  | cons m ms ih => exact ih h.2.2.2 (move_ok hW hp m h.1 h.2.1 h.2.2.1).pair

theorem ahead_run {F : Prop} {W : Route} {A B : FedId} {hop : FedId → FedId → FedId} {limit : Int} {s : Tree} (hW : W.Ok hop A B) {ms : List Tmove}
    (h : Legal F W A B hop limit s ms) (hp : Pair F hop W A B s) (X : Time) (i k : Nat) (hX : Active F W A B (s.run hop limit ms) X i k) :
    ∃ Y j l, Y ≤ X ∧ Active F W A B s Y j l := by
  induction ms generalizing s with
  | nil => exact ⟨X, i, k, Int.le_refl _, hX⟩
  | cons m ms ih =>
    have hm := move_ok (limit := limit) hW hp m h.1 h.2.1 h.2.2.1
    obtain ⟨Y, j, l, h1, h2⟩ := ih h.2.2.2 hm.pair hX
    obtain ⟨Z, j', l', h3, h4⟩ := hm.ahead Y j l h2
    exact ⟨Z, j', l', by omega, h4⟩

theorem causal {F : Prop} {A B : FedId} {W : Route} {hop : FedId → FedId → FedId} (hW : W.Ok hop A B) (limit : Int)
    (s0 : Tree) (h0 : Pair F hop W A B s0) (pre : List Tmove) (m : Tmove) (post : List Tmove)
    (hl : Legal F W A B hop limit s0 (pre ++ m :: post))
    (hs : ((s0.run hop limit pre).fed B).state = .executing)
    (hdep : ((s0.run hop limit pre).fed B).tc.deps.isDependency (W.src (W.len - 1)) = true)
    (hrw : ∀ cmd, arriving (s0.run hop limit pre) m = some (B, cmd) → rewires (W.src (W.len - 1)) cmd = false)
    (hv : W.src (W.len - 1) ≠ invalidFed)
    (hkind : strict ((s0.run hop limit pre).fed B) = true ∨ F)
    (T : Time) (hT : ((s0.run hop limit pre).step hop limit m).2 = some (B, T))
    (t : Time) (b : Bool) (u v : FedId) (hd : .data t A B b ∈ (s0.run hop limit (pre ++ m :: post)).chan u v)
    (hfar : far ((s0.run hop limit pre).fed B).tc.info
      (if strict ((s0.run hop limit pre).fed B) then t else max t ((s0.run hop limit pre).fed B).tc.granted)) :
    T ≤ ((s0.run hop limit pre).fed B).tc.info.inputDelay +
      (if strict ((s0.run hop limit pre).fed B) then t else max t ((s0.run hop limit pre).fed B).tc.granted) := by
  obtain ⟨hl1, hl2⟩ := legal_append hl
  have hend := pair_run hW hl h0
  have hp := pair_run hW hl1 h0
  obtain ⟨q, hq, rfl, rfl⟩ := hend.shape.data u v t b hd
  obtain ⟨k, hk⟩ := List.getElem?_of_mem hd
  have hact : Active F W A B (s0.run hop limit (pre ++ m :: post)) t q k := .inl ⟨hq, b, hk⟩
  clear hk hd hend
  rw [run_append] at hact
  generalize s0.run hop limit pre = s at *
  have hm := move_ok (limit := limit) hW hp m hl2.1 hl2.2.1 hl2.2.2.1
  obtain ⟨X, j, l, hXt, hX⟩ := ahead_run hW hl2.2.2.2 hm.pair t q k hact
  obtain ⟨o, ho, hret, hcmd, hkk, htab, hpos⟩ := hm.grant T hT X j l hX
  obtain ⟨hinv, hself⟩ := hp.shape.inv B hW.receiver
  have hle : (if strict (s.fed B) then X else max X (s.fed B).tc.granted) ≤ (if strict (s.fed B) then t else max t (s.fed B).tc.granted) := by
    split <;> omega
  have hhas : Has (W.src (W.len - 1)) (fun _ => True) (s.fed B).tc.deps := by
    obtain ⟨d, rest, h1, h2, h3⟩ := isDependency_split hdep
    have := before_append_fromLB (s.fed B).tc.deps (W.src (W.len - 1))
    exact ⟨d, by rw [← this, h1]; simp, h2, h3, trivial⟩
  have := grant_bound (limit := limit) hinv (by rw [hself]; exact src_ne_B hW (by have := hW.long; omega)) hv hpos o (by rw [hself]; exact ho) hkk htab hs
    (fun cmd e => ⟨hrw cmd (hcmd cmd e).2, (hcmd cmd e).1⟩) hhas (far_mono hle hfar) hkind T hret
  have hle' : (if (s.fed B).tc.info.restrictive || (s.fed B).tc.globalTime then X else max X (s.fed B).tc.granted) ≤
      (if strict (s.fed B) then t else max t (s.fed B).tc.granted) := hle
  omega

/-- A federation after its cores and brokers have been told their dependencies. -/
def wired (ok ng gt core restr : FedId → Bool) (hop : FedId → FedId → FedId) (limit : Int) (wires : List Tmove) : Tree :=
  (Tree.start ok ng gt core restr).run hop limit wires

/-- **C49 (restrictive federates).**  Federate `A` keeps the restrictive policy while it executes, and so do the cores
and brokers that take part in the timing on the route from `A` to `B`.  Let `B`, executing and restrictive, be
granted `T` while it depends on the last station of the route.  From then on, whatever anybody does, in whatever
order commands and data arrive anywhere: all data from `A` for `B`, on whatever link of whatever core or broker it
still is, carries a time stamp `t` with `T ≤ t + inputDelay`. -/
theorem C49_restrictive (A B : FedId) (W : Route) (hop : FedId → FedId → FedId) (hW : W.Ok hop A B) (limit : Int)
    (ok ng gt core restr : FedId → Bool) (wires : List Tmove) (hwires : ∀ m ∈ wires, wiring m = true)
    (hknows : W.Knows (wired ok ng gt core restr hop limit wires))
    (hrestr : ∀ q, 0 < q → q < W.len → W.station q = true → restr (W.node q) = true)
    (pre : List Tmove) (m : Tmove) (post : List Tmove)
    (hl : Legal False W A B hop limit (wired ok ng gt core restr hop limit wires) (pre ++ m :: post)) (before after : Tree)
    (hbefore : before = (wired ok ng gt core restr hop limit wires).run hop limit pre)
    (hafter : after = (wired ok ng gt core restr hop limit wires).run hop limit (pre ++ m :: post))
    (hs : (before.fed B).state = .executing) (hv : FedId.isValid (W.src (W.len - 1)) = true)
    (hdep : (before.fed B).tc.deps.isDependency (W.src (W.len - 1)) = true)
    (hrw : ∀ cmd, arriving before m = some (B, cmd) → rewires (W.src (W.len - 1)) cmd = false) (hkind : strict (before.fed B) = true)
    (T : Time) (hT : (before.step hop limit m).2 = some (B, T))
    (t : Time) (b : Bool) (u v : FedId) (hd : .data t A B b ∈ after.chan u v) (hfar : far (before.fed B).tc.info t) :
    T ≤ t + (before.fed B).tc.info.inputDelay := by
  subst hbefore hafter
  have h0 : Pair False hop W A B (wired ok ng gt core restr hop limit wires) := pair_wired (F := False) hW ok ng gt restr (wiring_run (wiring_start False ok ng gt core restr) wires hwires) hknows (fun q a b c => .inl (hrestr q a b c))
  have := causal hW limit _ h0 pre m post hl hs hdep hrw (Fwd.isValid_ne hv) (.inl hkind) T hT t b u v hd (by rw [if_pos hkind]; exact hfar)
  rw [if_pos hkind] at this
  omega

/-- **C49 (uninterruptible sender).**  The same when `A` is uninterruptible and asks without iteration, for cores,
brokers and a receiver with any time policy. -/
theorem C49_uninterruptible (A B : FedId) (W : Route) (hop : FedId → FedId → FedId) (hW : W.Ok hop A B) (limit : Int)
    (ok ng gt core restr : FedId → Bool) (wires : List Tmove) (hwires : ∀ m ∈ wires, wiring m = true)
    (hknows : W.Knows (wired ok ng gt core restr hop limit wires))
    (pre : List Tmove) (m : Tmove) (post : List Tmove)
    (hl : Legal True W A B hop limit (wired ok ng gt core restr hop limit wires) (pre ++ m :: post)) (before after : Tree)
    (hbefore : before = (wired ok ng gt core restr hop limit wires).run hop limit pre)
    (hafter : after = (wired ok ng gt core restr hop limit wires).run hop limit (pre ++ m :: post))
    (hs : (before.fed B).state = .executing) (hv : FedId.isValid (W.src (W.len - 1)) = true)
    (hdep : (before.fed B).tc.deps.isDependency (W.src (W.len - 1)) = true)
    (hrw : ∀ cmd, arriving before m = some (B, cmd) → rewires (W.src (W.len - 1)) cmd = false)
    (T : Time) (hT : (before.step hop limit m).2 = some (B, T))
    (t : Time) (b : Bool) (u v : FedId) (hd : .data t A B b ∈ after.chan u v)
    (hfar : far (before.fed B).tc.info (max t (before.fed B).tc.granted)) :
    T ≤ max t (before.fed B).tc.granted + (before.fed B).tc.info.inputDelay ∧
    (strict (before.fed B) = true → T ≤ t + (before.fed B).tc.info.inputDelay) := by
  subst hbefore hafter
  have h0 : Pair True hop W A B (wired ok ng gt core restr hop limit wires) := pair_wired (F := True) hW ok ng gt restr (wiring_run (wiring_start True ok ng gt core restr) wires hwires) hknows (fun q a b c => .inr trivial)
  generalize wired ok ng gt core restr hop limit wires = s0 at *
  have hf : far ((s0.run hop limit pre).fed B).tc.info
      (if strict ((s0.run hop limit pre).fed B) then t else max t ((s0.run hop limit pre).fed B).tc.granted) :=
    far_mono (by split <;> omega) hfar
  have := causal hW limit _ h0 pre m post hl hs hdep hrw (Fwd.isValid_ne hv) (.inr trivial) T hT t b u v hd hf
  refine ⟨?_, fun hk => ?_⟩
  · split at this <;> omega
  · rw [if_pos hk] at this; omega

end Tree
end Verif
