import Verif.Props.SourceSpec
import Mathlib.Tactic.Ring
import Mathlib.Tactic.Linarith
/-!
# C70: the source application publishes when it is due
-/
namespace Verif.Source

theorem minNext_le {l : List Src} {t : Int} (h : minNext l = some t) : ∀ s ∈ l, t ≤ s.next := by
  induction l generalizing t with
  | nil => intro s hs; cases hs
  | cons a r ih =>
    unfold minNext at h
    intro s hs
    cases hm : minNext r with
    | none =>
      rw [hm] at h
      cases r with
      | nil =>
        rw [List.mem_singleton] at hs; subst hs
        simp at h; omega
      | cons b q => unfold minNext at hm; split at hm <;> simp at hm
    | some m =>
      rw [hm] at h
      simp only [Option.some.injEq] at h
      rcases List.mem_cons.1 hs with rfl | hs
      · split at h <;> omega
      · have := ih hm s hs
        split at h <;> omega

theorem minNext_some {l : List Src} (h : l ≠ []) : ∃ t, minNext l = some t ∧ ∃ s ∈ l, s.next = t := by
  induction l with
  | nil => exact absurd rfl h
  | cons a r ih =>
    unfold minNext
    cases hm : minNext r with
    | none => exact ⟨_, rfl, a, List.mem_cons_self, rfl⟩
    | some m =>
      have hr : r ≠ [] := by rintro rfl; simp [minNext] at hm
      obtain ⟨t, ht, s, hs, e⟩ := ih hr
      rw [hm] at ht; injection ht with ht
      dsimp only
      split
      · exact ⟨_, rfl, a, List.mem_cons_self, rfl⟩
      · exact ⟨_, rfl, s, List.mem_cons_of_mem _ hs, by omega⟩

theorem due_succ (s : Src) (k : Nat) : due s (k + 1) = due s k + s.period := by
  unfold due; push_cast; ring

theorem due_lt {s : Src} (hp : 0 < s.period) {j k : Nat} (h : j < k) : due s j < due s k := by
  unfold due
  have : (j : Int) * s.period < k * s.period := by
    apply Int.mul_lt_mul_of_pos_right _ hp; exact_mod_cast h
  omega

theorem due_nonneg {s : Src} (hp : 0 < s.period) (k : Nat) : 0 ≤ due s k := by
  unfold due
  have : 0 ≤ (k : Int) * s.period := Int.mul_nonneg (by omega) (by omega)
  split <;> omega

/-! ## Times granted as asked -/

/-- Where a source is when times are granted as asked. -/
def Inv (t : Int) (s0 s : Src) : Prop :=
  s.period = s0.period ∧ ∃ n : Nat, s.out = before s0 ++ (List.range n).map (due s0) ∧ s.next = due s0 n ∧ t < s.next ∧ ∀ k, k < n → due s0 k ≤ t

theorem inv_fire {t g : Int} {s0 s : Src} (hp : 0 < s0.period) (h : Inv t s0 s) (hg : g ≤ s.next) (ht : t < g) : Inv g s0 (fire g s) := by
  obtain ⟨h1, n, h2, h3, h4, h5⟩ := h
  unfold fire
  by_cases hn : s.next ≤ g
  · rw [if_pos hn]
    have e : s.next = g := by omega
    refine ⟨h1, n + 1, ?_, ?_, ?_, ?_⟩
    · simp only [h2, List.range_succ, List.map_append, List.map_cons, List.map_nil, List.append_assoc, ← e, h3]
    · simp only [due_succ, h1, e]; rw [if_neg (by omega)]; omega
    · simp only [h1, e]; rw [if_neg (by omega)]; omega
    · intro k hk
      rcases Nat.lt_succ_iff_lt_or_eq.1 hk with hk | rfl
      · have := h5 k hk; omega
      · omega
  · rw [if_neg hn]
    exact ⟨h1, n, h2, h3, by omega, fun k hk => by have := h5 k hk; omega⟩

theorem begin_out (s0 : Src) (ho : s0.out = []) : (early s0).out = before s0 ∧ (early s0).next = due s0 0 ∧ (early s0).period = s0.period := by
  unfold early before due fire
  by_cases h : s0.next < 0
  · have : s0.next ≤ -1 := by omega
    simp [h, this, ho]
  · simp [h, ho]

theorem inv_begin {s0 : Src} (hp : 0 < s0.period) (ho : s0.out = []) : Inv 0 s0 (fire 0 (early s0)) := by
  obtain ⟨h1, h2, h3⟩ := begin_out s0 ho
  have h0 := due_nonneg hp 0
  unfold fire
  by_cases hn : (early s0).next ≤ 0
  · rw [if_pos hn]
    have e : due s0 0 = 0 := by omega
    refine ⟨h3, 1, by simp [h1, e], ?_, ?_, ?_⟩
    · have := due_succ s0 0
      rw [Nat.zero_add] at this
      simp only [h2, h3, e]; rw [if_neg (by omega)]; omega
    · simp only [h2, h3, e]; rw [if_neg (by omega)]; omega
    · intro k hk; have : k = 0 := by omega
      subst this; omega
  · rw [if_neg hn]
    exact ⟨h3, 0, by simp [h1], h2, by omega, fun k hk => absurd hk (by omega)⟩

theorem forall_right {R : Src → Src → Prop} {l m : List Src} (h : List.Forall₂ R l m) {P : Src → Prop} (hp : ∀ a ∈ l, ∀ b, R a b → P b) : ∀ b ∈ m, P b := by
  induction h with
  | nil => intro b hb; cases hb
  | cons h1 _ ih =>
    intro b hb
    rcases List.mem_cons.1 hb with rfl | hb
    · exact hp _ List.mem_cons_self _ h1
    · exact ih (fun a ha => hp a (List.mem_cons_of_mem _ ha)) b hb

theorem forall_map {R R' : Src → Src → Prop} {l m : List Src} (h : List.Forall₂ R l m) (f : Src → Src)
    (hp : ∀ a ∈ l, ∀ b ∈ m, R a b → R' a (f b)) : List.Forall₂ R' l (m.map f) := by
  induction h with
  | nil => exact .nil
  | cons h1 _ ih =>
    exact .cons (hp _ List.mem_cons_self _ List.mem_cons_self h1)
      (ih fun a ha b hb => hp a (List.mem_cons_of_mem _ ha) b (List.mem_cons_of_mem _ hb))

theorem forall_begin {R : Src → Src → Prop} (l : List Src) (f : Src → Src) (hp : ∀ a ∈ l, R a (f a)) : List.Forall₂ R l (l.map f) := by
  induction l with
  | nil => exact .nil
  | cons a r ih => exact .cons (hp a List.mem_cons_self) (ih fun b hb => hp b (List.mem_cons_of_mem _ hb))

theorem exact_inv {l : List Src} (hc : Configured l) {s : State} (h : Exact l s) : List.Forall₂ (Inv s.cur) l s.srcs := by
  induction h with
  | start =>
    unfold begin_
    rw [List.map_map]
    exact forall_begin l _ fun a ha => inv_begin (hc a ha).1 (hc a ha).2
  | step _ hs hm ih =>
    cases hs with
    | round t ht _ _ hlt =>
      exact forall_map ih _ fun a ha b hb hi => inv_fire (hc a ha).1 hi (minNext_le hm b hb) hlt

theorem inv_onTime {t : Int} {s0 s : Src} (hp : 0 < s0.period) (h : Inv t s0 s) {u : Int} (h1 : t ≤ u) (h2 : u < s.next) : OnTime u s0 s := by
  obtain ⟨_, n, i2, i3, i4, i5⟩ := h
  refine ⟨n, i2, fun k => ⟨fun hk => ?_, fun hk => by have := i5 k hk; omega⟩⟩
  by_contra hn
  rcases Nat.lt_or_eq_of_le (Nat.not_lt.1 hn) with h' | h'
  · have := due_lt hp h'; omega
  · subst h'; omega

/-- C70: if the application is granted the times it asks for, every source has published at exactly the times it was due so far, once each. -/
theorem C70_on_time {l : List Src} (hc : Configured l) {s : State} (h : Exact l s) : List.Forall₂ (OnTime s.cur) l s.srcs := by
  have := forall_map (R' := OnTime s.cur) (exact_inv hc h) id fun a ha b _ hi => inv_onTime (hc a ha).1 hi (Int.le_refl _) (by obtain ⟨_, n, _, _, h4, _⟩ := hi; exact h4)
  simpa using this

/-- C70: when the call is over, that is so for all times up to the stop time. -/
theorem C70_complete {l : List Src} (hc : Configured l) {s : State} (h : Exact l s) {stop : Int} (hf : Finished stop s) (hs : s.cur ≤ stop) :
    List.Forall₂ (OnTime stop) l s.srcs := by
  have hn : ∀ b ∈ s.srcs, stop < b.next := by
    intro b hb
    obtain ⟨t, ht, _⟩ := minNext_some (List.ne_nil_of_mem hb)
    have := hf t ht
    have := minNext_le ht b hb
    omega
  have := forall_map (R' := OnTime stop) (exact_inv hc h) id fun a ha b hb hi => inv_onTime (hc a ha).1 hi hs (hn b hb)
  simpa using this

/-! ## Any grants -/

theorem late_next {n p c : Int} (hp : 0 < p) (h : n < c) : ∃ k : Nat, n + ((c - n) / p * p + p) = n + (k + 1) * p ∧ c < n + (k + 1) * p := by
  have h0 : 0 ≤ (c - n) / p := Int.ediv_nonneg (by omega) (by omega)
  have h1 := Int.lt_ediv_add_one_mul_self (c - n) hp
  refine ⟨((c - n) / p).toNat, ?_, ?_⟩
  · rw [Int.toNat_of_nonneg h0]; ring
  · rw [Int.toNat_of_nonneg h0]; omega

/-- Where a source is, whatever is granted. -/
def Gen (t : Int) (s0 s : Src) : Prop :=
  s.period = s0.period ∧ ∃ l : List Int, s.out = before s0 ++ l ∧ l.Pairwise (· < ·) ∧ (∀ x ∈ l, 0 ≤ x ∧ x ≤ t) ∧
    (∀ k x, l[k]? = some x → due s0 k ≤ x) ∧ (∃ k, s.next = due s0 k ∧ l.length ≤ k) ∧ t ≤ s.next

theorem due_le {s : Src} (hp : 0 < s.period) {j k : Nat} (h : j ≤ k) : due s j ≤ due s k := by
  rcases Nat.lt_or_eq_of_le h with h | rfl
  · exact Int.le_of_lt (due_lt hp h)
  · exact Int.le_refl _

theorem due_add (s : Src) (k j : Nat) : due s (k + j) = due s k + j * s.period := by
  unfold due; push_cast; ring

/-- Publishing at a time `g` past everything published. -/
theorem gen_core {g : Int} {s0 s : Src} (hp : 0 < s0.period) (h1 : s.period = s0.period) {l : List Int} (h2 : s.out = before s0 ++ l)
    (h3 : l.Pairwise (· < ·)) (h4 : ∀ x ∈ l, 0 ≤ x ∧ x < g) (h5 : ∀ k x, l[k]? = some x → due s0 k ≤ x) {k : Nat} (h6 : s.next = due s0 k)
    (h7 : l.length ≤ k) (h0 : 0 ≤ g) : Gen g s0 (fire g s) := by
  unfold fire
  by_cases hn : s.next ≤ g
  · rw [if_pos hn]
    refine ⟨h1, l ++ [g], by simp [h2], ?_, ?_, ?_, ?_, ?_⟩
    · rw [List.pairwise_append]
      exact ⟨h3, List.pairwise_singleton _ _, fun a ha b hb => by rw [List.mem_singleton] at hb; subst hb; exact (h4 a ha).2⟩
    · intro x hx
      rcases List.mem_append.1 hx with hx | hx
      · have := h4 x hx; omega
      · rw [List.mem_singleton] at hx; omega
    · intro j x hj
      rcases Nat.lt_trichotomy j l.length with hl | hl | hl
      · rw [List.getElem?_append_left hl] at hj; exact h5 j x hj
      · subst hl
        have := due_le hp h7
        simp at hj; omega
      · rw [List.getElem?_eq_none (by simp; omega)] at hj; cases hj
    · dsimp only
      split
      · rename_i hlt
        obtain ⟨j, e, _⟩ := late_next (p := s.period) (by omega) hlt
        refine ⟨k + 1 + (j + 1), ?_, by simp; omega⟩
        rw [e, due_add, due_succ, h1, h6]; push_cast; rfl
      · exact ⟨k + 1, by rw [due_succ, h1, h6], by simp; omega⟩
    · dsimp only
      split
      · rename_i hlt
        obtain ⟨j, e, hgt⟩ := late_next (p := s.period) (by omega) hlt
        omega
      · omega
  · rw [if_neg hn]
    exact ⟨h1, l, h2, h3, fun x hx => by have := h4 x hx; omega, h5, ⟨k, h6, h7⟩, by omega⟩

theorem gen_begin {s0 : Src} (hp : 0 < s0.period) (ho : s0.out = []) : Gen 0 s0 (fire 0 (early s0)) := by
  obtain ⟨h1, h2, h3⟩ := begin_out s0 ho
  exact gen_core hp h3 (l := []) (by simp [h1]) List.Pairwise.nil (fun x hx => by cases hx) (fun k x hk => by simp at hk) h2 (Nat.le_refl _) (Int.le_refl _)

theorem reach_gen {l : List Src} (hc : Configured l) {s : State} (h : Reach l s) : 0 ≤ s.cur ∧ List.Forall₂ (Gen s.cur) l s.srcs := by
  induction h with
  | start =>
    refine ⟨Int.le_refl _, ?_⟩
    unfold begin_
    rw [List.map_map]
    exact forall_begin l _ fun a ha => gen_begin (hc a ha).1 (hc a ha).2
  | @step s s' stop g _ hs ih =>
    cases hs with
    | round t _ _ _ hlt =>
      obtain ⟨i0, ih⟩ := ih
      refine ⟨by dsimp only; omega, forall_map ih _ fun a ha b hb hi => ?_⟩
      obtain ⟨h1, m, h2, h3, h4, h5, ⟨k, h6, h7⟩, _⟩ := hi
      exact gen_core (g := g) (hc a ha).1 h1 h2 h3 (fun x hx => by have := h4 x hx; omega) h5 h6 h7 (by omega)

/-- C70: whatever is granted, every source publishes at increasing times, its k-th value not before it is due for the k-th time, and waits for a
time at which it is due and which is not past: values that were missed are left out, and nothing piles up. -/
theorem C70_in_order {l : List Src} (hc : Configured l) {s : State} (h : Reach l s) : List.Forall₂ (InOrder s.cur) l s.srcs := by
  have := forall_map (R' := InOrder s.cur) (reach_gen hc h).2 id fun a _ b _ hi => by
    obtain ⟨_, m, h2, h3, h4, h5, ⟨k, h6, _⟩, h7⟩ := hi
    exact ⟨m, h2, h3, h4, h5, ⟨k, h6⟩, h7⟩
  simpa using this

/-- C70: while the loop runs, the time asked for is never in the past. -/
theorem C70_asks_forward {l : List Src} (hc : Configured l) {s : State} (h : Reach l s) {t : Int} (ht : minNext s.srcs = some t) : s.cur ≤ t := by
  by_cases he : s.srcs = []
  · rw [he] at ht; cases ht
  · obtain ⟨t', ht', b, hb, e⟩ := minNext_some he
    rw [ht] at ht'; injection ht' with ht'
    have := forall_right (reach_gen hc h).2 (P := fun b => s.cur ≤ b.next) (fun a _ b hi => by obtain ⟨_, _, _, _, _, _, _, h7⟩ := hi; exact h7) b hb
    omega

/-- C70: a call of `runTo` comes to an end, whatever is granted: every round advances the federate's time, and once it is past the stop time the
loop is over. -/
theorem C70_ends {l : List Src} (hc : Configured l) {s s' : State} (h : Reach l s) {stop g : Int} (hs : Step stop g s s') :
    s.cur ≤ stop ∧ s.cur < s'.cur := by
  cases hs with
  | round t ht h1 _ hlt =>
    have := C70_asks_forward hc h ht
    exact ⟨by omega, hlt⟩

/-- C70: until it is over the loop goes on. -/
theorem C70_goes_on {s : State} {stop : Int} (hn : ¬ Finished stop s) : ∃ g s', Step stop g s s' ∧ ∀ t, minNext s.srcs = some t → s.cur < t → g = t := by
  unfold Finished at hn
  simp only [Classical.not_forall] at hn
  obtain ⟨t, ht, hl⟩ := hn
  by_cases hlt : s.cur < t
  · exact ⟨t, _, .round t ht (by omega) (Int.le_refl _) hlt, fun t' h' _ => by rw [ht] at h'; injection h'⟩
  · exact ⟨s.cur + 1, _, .round t ht (by omega) (by omega) (by omega), fun t' h' h'' => by rw [ht] at h'; injection h' with h'; omega⟩

/-- C70 (counterexample): a source that is granted a time exactly one period late publishes for it once, but is then due at the time it is at,
asks for it again, and publishes once more just after it. -/
theorem C70_extra_value : ∃ s, Reach [{ next := 1, period := 2 }] s ∧ s.srcs = [{ next := 5, period := 2, out := [3, 4] }] := by
  have h0 : Reach [{ next := 1, period := 2 }] { cur := 0, srcs := [{ next := 1, period := 2 }] } := Reach.start
  have h1 : Reach [{ next := 1, period := 2 }] { cur := 3, srcs := [{ next := 3, period := 2, out := [3] }] } :=
    Reach.step h0 (Step.round (stop := 9) (g := 3) 1 rfl (by decide) (by decide) (by decide))
  exact ⟨_, Reach.step h1 (Step.round (stop := 9) (g := 4) 3 rfl (by decide) (by decide) (by decide)), rfl⟩

/-- Two sources, one that starts before time zero, over some rounds with the times granted as asked. -/
example : ∃ s, Exact [{ next := -5, period := 2 }, { next := 1, period := 3 }] s ∧ s.cur = 4 ∧ Finished 4 s ∧
    s.srcs.map (·.out) = [[-1, 0, 2, 4], [1, 4]] := by
  have h0 : Exact [{ next := -5, period := 2 }, { next := 1, period := 3 }] _ := Exact.start
  have h1 := Exact.step h0 (Step.round (stop := 4) (g := 1) 1 rfl (by decide) (by decide) (by decide)) rfl
  have h2 := Exact.step h1 (Step.round (stop := 4) (g := 2) 2 rfl (by decide) (by decide) (by decide)) rfl
  have h3 := Exact.step h2 (Step.round (stop := 4) (g := 4) 4 rfl (by decide) (by decide) (by decide)) rfl
  refine ⟨_, h3, rfl, ?_, by decide⟩
  intro t ht
  have : (some 6 : Option Int) = some t := ht
  injection this; omega

end Verif.Source
