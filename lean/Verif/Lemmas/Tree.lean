import Verif.Props.TreeSpec
/-! Routes, and the invariant of the tree of cores and brokers. -/
namespace Verif
open Causal Causality Deps Fed TC

namespace Route
variable {W : Route} {hop : FedId → FedId → FedId} {A B : FedId}

theorem seg_le (W : Route) (q : Nat) : W.seg q ≤ q := by
  induction q with
  | zero => exact Nat.le_refl _
  | succ q ih => unfold seg; split <;> omega

theorem seg_mono (W : Route) {i j : Nat} (h : i ≤ j) : W.seg i ≤ W.seg j := by
  induction j with
  | zero => rw [show i = 0 by omega]; exact Nat.le_refl _
  | succ j ih =>
    by_cases e : i = j + 1
    · rw [e]; exact Nat.le_refl _
    · have := ih (by omega)
      have := seg_le W i
      have hj : W.seg (j + 1) = if W.station (j + 1) then j + 1 else W.seg j := rfl
      rw [hj]
      split <;> omega

theorem seg_station {W : Route} {q : Nat} (h : W.station q = true) : W.seg q = q := by
  cases q with
  | zero => rfl
  | succ q => unfold seg; rw [if_pos h]

theorem seg_relay {W : Route} {q : Nat} (h : W.station (q + 1) = false) : W.seg (q + 1) = W.seg q := by
  conv => lhs; unfold seg
  rw [if_neg (by simp [h])]

/-- two links that end at a station and start from the same one are the same -/
theorem seg_inj {W : Route} {i j : Nat} (h : W.seg i = W.seg j) (hi : W.station (i + 1) = true) (hj : W.station (j + 1) = true) : i = j := by
  rcases Nat.lt_trichotomy i j with hlt | e | hlt
  · have h1 := seg_mono W (show i + 1 ≤ j by omega)
    rw [seg_station hi] at h1
    have := seg_le W i
    omega
  · exact e
  · have h1 := seg_mono W (show j + 1 ≤ i by omega)
    rw [seg_station hj] at h1
    have := seg_le W j
    omega

/-- a command travels from `me` to `d` and is at `u` -/
inductive Reach (hop : FedId → FedId → FedId) (me d : FedId) : FedId → Prop
  | base : Reach hop me d me
  | step {u} : Reach hop me d u → hop u d ≠ d → Reach hop me d (hop u d)

theorem dst_seg (h : W.Ok hop A B) {q : Nat} (hq : q < W.len) : W.dst (W.seg q) = W.dst q := by
  induction q with
  | zero => rfl
  | succ q ih =>
    cases hs : W.station (q + 1) with
    | true => rw [seg_station hs]
    | false =>
      rw [seg_relay hs, ih (by omega), h.target q (by omega), if_neg (by simp [hs])]

/-- a command of the sender or a station for the next station is on the route -/
theorem reach_route (h : W.Ok hop A B) {q : Nat} (hq : q < W.len) {u : FedId} (hr : Reach hop (W.src q) (W.dst q) u) :
    ∃ j, j < W.len ∧ W.seg j = W.seg q ∧ u = W.node j := by
  induction hr with
  | base =>
    refine ⟨W.seg q, Nat.lt_of_le_of_lt (seg_le W q) hq, ?_, rfl⟩
    cases hs : W.station (W.seg q) with
    | true => exact seg_station hs
    | false =>
      have hz : W.seg q = 0 := by
        clear hq
        induction q with
        | zero => rfl
        | succ q ih =>
          cases h2 : W.station (q + 1) with
          | true => rw [seg_station h2] at hs; rw [h2] at hs; cases hs
          | false => rw [seg_relay h2] at hs ⊢; exact ih hs
      rw [hz]; rfl
  | step _ hne ih =>
    obtain ⟨j, hj, hs, rfl⟩ := ih
    have hd : W.dst q = W.dst j := by rw [← dst_seg h hq, ← dst_seg h hj, hs]
    rw [hd] at hne ⊢
    rw [h.route j hj] at hne ⊢
    have hst : W.station (j + 1) = false := by
      cases hst : W.station (j + 1) with
      | false => rfl
      | true => exact absurd (by rw [h.target j hj, if_pos hst]) hne
    have hl : j + 1 ≠ W.len := by intro e; rw [e, h.ends] at hst; cases hst
    exact ⟨j + 1, by omega, by rw [seg_relay hst, hs], rfl⟩

theorem node_ne_A (h : W.Ok hop A B) {q : Nat} (h0 : 0 < q) (hq : q < W.len) : W.node q ≠ A := by
  intro e
  have := h.inner q h0 hq
  rw [e, h.sender] at this
  cases this

theorem node_ne_B (h : W.Ok hop A B) {q : Nat} (hq : q < W.len) : W.node q ≠ B := by
  intro e
  by_cases h0 : q = 0
  · rw [h0, h.first] at e; exact h.differ e
  · have := h.inner q (by omega) hq
    rw [e, h.receiver] at this
    cases this

theorem src_ne_B (h : W.Ok hop A B) {q : Nat} (hq : q < W.len) : W.src q ≠ B :=
  node_ne_B h (Nat.lt_of_le_of_lt (seg_le W q) hq)

/-- a command on link `q` that counts -/
def On (W : Route) (q : Nat) (m : Msg) : Prop := m.source = W.src q ∧ m.dest = W.dst q

/-- where a counting command for station `q` comes from -/
theorem reach_arrive (h : W.Ok hop A B) {q : Nat} (h0 : 0 < q) (hq : q ≤ W.len) (hs : W.station q = true) {u : FedId}
    (hr : Reach hop (W.src (q - 1)) (W.node q) u) (hv : hop u (W.node q) = W.node q) : u = W.node (q - 1) := by
  have hd : W.dst (q - 1) = W.node q := by
    rw [h.target (q - 1) (by omega), show q - 1 + 1 = q by omega, if_pos hs]
  rw [← hd] at hr
  obtain ⟨j, hj, hsj, rfl⟩ := reach_route h (q := q - 1) (by omega) hr
  have hdj : W.dst j = W.node q := by rw [← dst_seg h hj, hsj, dst_seg h (by omega), hd]
  have hst : W.station (j + 1) = true := by
    cases hst : W.station (j + 1) with
    | true => rfl
    | false =>
      have hl : j + 1 ≠ W.len := by intro e; rw [e, h.ends] at hst; cases hst
      have h1 := h.relay (j + 1) (by omega) (by omega) hst
      have h2 := h.target j hj
      rw [if_neg (by simp [hst])] at h2
      rw [← h2, hdj] at h1
      have h3 := h.route j hj
      rw [hdj, hv] at h3
      exact absurd h3.symm h1
  rw [seg_inj hsj hst (by rw [show q - 1 + 1 = q by omega]; exact hs)]

/-- where a counting command that is passed on over link `q` comes from -/
theorem reach_relay (h : W.Ok hop A B) {q : Nat} (hq : q < W.len) {u : FedId}
    (hr : Reach hop (W.src q) (W.dst q) u) (hv : hop u (W.dst q) = W.node q) (hne : W.node q ≠ W.dst q)
    (he : hop (W.node q) (W.dst q) = W.node (q + 1)) : 0 < q ∧ W.station q = false ∧ u = W.node (q - 1) := by
  obtain ⟨j, hj, hsj, rfl⟩ := reach_route h hq hr
  have hdj : W.dst j = W.dst q := by rw [← dst_seg h hj, hsj, dst_seg h hq]
  have h3 := h.route j hj
  rw [hdj, hv] at h3
  have hst : W.station (j + 1) = false := by
    cases hst : W.station (j + 1) with
    | false => rfl
    | true =>
      have := h.target j hj
      rw [if_pos hst, hdj] at this
      rw [this] at hne
      exact absurd h3 hne
  have hl : j + 1 ≠ W.len := by intro e; rw [e, h.ends] at hst; cases hst
  have h2 := h.target j hj
  rw [if_neg (by simp [hst]), hdj] at h2
  have h4 := h.route (j + 1) (by omega)
  rw [← h2, ← h3, he] at h4
  have := h.once q (j + 1) hq (by omega) h3 h4
  subst this
  exact ⟨by omega, hst, by simp⟩

/-- a station's own command is not sent on by a node that only passes things on -/
theorem own_station (h : W.Ok hop A B) {q : Nat} (hq : q < W.len) (h0 : 0 < q) (e : W.src q = W.node q) : W.station q = true := by
  cases hst : W.station q with
  | true => rfl
  | false =>
    have hl : W.seg q < q := by
      cases q with
      | zero => omega
      | succ q => rw [seg_relay hst]; have := seg_le W q; omega
    have h1 := h.route (W.seg q) (by omega)
    have h2 := h.route q hq
    rw [dst_seg h hq] at h1
    unfold src at e
    rw [e, h2] at h1
    have := h.once (W.seg q) q (by omega) hq e h1.symm
    omega

end Route
end Verif
