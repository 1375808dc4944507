import Verif.Lemmas.FedRun
/-!
# C01, C02, C03: what a federate is granted

A federate starts as `Fed.initial` and then sees an arbitrary list of events (`FedOp`): commands from the
network in any order, data, API calls, changed settings.  `Fed.grants` lists the times handed to the user.
-/
namespace Verif
namespace Grants
open Fed TC

/-- `f` is reached from a new federate by a history of well-formed events. -/
def Reached (limit : Int) (f : Fed) : Prop :=
  ∃ (self : FedId) (ok ng gt : Bool) (pre : List FedOp), self ≠ parentBroker ∧
    (∀ o ∈ pre, o.sane self) ∧ f = (Fed.initial self ok ng gt).run limit pre

theorem Reached.inv {limit : Int} {f : Fed} (h : Reached limit f) : Inv f := by
  obtain ⟨s, a, b, c, pre, hs, hp, rfl⟩ := h
  exact (run_ok limit _ pre (initial_inv s a b c hs) hp).1

/-- The events between a request and the next API call. -/
def Quiet (f : Fed) (ops : List FedOp) : Prop := ∀ o ∈ ops, o.sane f.tc.self ∧ o.waiting

/-! ### A concrete history used as a witness below

A federate 7 depends on federate 8, enters executing mode, asks for 10 and is granted 10 when 8 announces it
will do nothing before 20. -/

/-- federate 8 asks for execution, then announces time `t` -/
def fromEight (a : Cmd) (t : Time) : FedOp :=
  .msg { action := a, source := 8, dest := 7, actionTime := t, Te := t, Tdemin := t }

def demoStart : List FedOp :=
  [.msg { action := .addDependency, source := 8, dest := 7 }, .msg { action := .initGrant, dest := 7 },
   .execRequest .noIterations, fromEight .execRequest 0, fromEight .execGrant 0]

def demoHistory : List FedOp :=
  demoStart ++ [.timeRequest 10 .noIterations maxVal maxVal, fromEight .timeRequest 20]

def demo : Fed := (Fed.initial 7 true false false).run 100 demoStart

theorem demo_reached : Reached 100 demo :=
  ⟨7, true, false, false, demoStart, by decide, by
    intro o ho
    simp only [demoStart, fromEight, List.mem_cons, List.not_mem_nil, or_false] at ho
    rcases ho with rfl | rfl | rfl | rfl | rfl <;> simp [FedOp.sane, Msg.sane, maxVal], rfl⟩

example : demo.state = .executing ∧ demo.mode = true ∧ demo.tc.granted = 0 := by decide
example : (Fed.initial 7 true false false).grants 100 demoHistory = [0, 10] := by decide

/-! ### C01 -/

/-- **C01** (never backwards).  For every history of a federate, the times handed to the user, in order, never
decrease - whatever mix of requests, timing messages, data, barriers, changed settings, forced grants. -/
theorem C01_never_backwards (limit : Int) (self : FedId) (ok ng gt : Bool) (ops : List FedOp)
    (hid : self ≠ parentBroker) (hops : ∀ o ∈ ops, o.sane self) :
    ((Fed.initial self ok ng gt).grants limit ops).Pairwise (· ≤ ·) :=
  (grants_ge limit _ ops (initial_inv self ok ng gt hid) hops).2

example : (7 : FedId) ≠ parentBroker ∧ (∀ o ∈ demoHistory, o.sane 7) ∧
    (Fed.initial 7 true false false).grants 100 demoHistory = [0, 10] := by
  refine ⟨by decide, ?_, by decide⟩
  intro o ho
  simp only [demoHistory, demoStart, fromEight, List.cons_append, List.nil_append, List.mem_cons,
    List.not_mem_nil, or_false] at ho
  rcases ho with rfl | rfl | rfl | rfl | rfl | rfl | rfl <;> simp [FedOp.sane, Msg.sane, maxVal]

/-- **C01** (one answer).  A request gets at most one answer: between it and the next API call at most one
time is handed out. -/
theorem C01_one_answer (limit : Int) (f : Fed) (t : Time) (it : IterReq) (nv nm : Time) (ops : List FedOp)
    (hf : Reached limit f) (hs : f.state = .executing) (hm : f.mode = true) (ht : t ≤ maxVal) (ho : Quiet f ops) :
    (f.grants limit (.timeRequest t it nv nm :: ops)).length ≤ 1 := by
  rcases grants_request limit f t it nv nm ops hf.inv hs hm ht ho with h | ⟨T, h, _⟩ <;> rw [h] <;> simp

/-- facts about the time granted to a non-iterating request -/
theorem noIter_facts {limit : Int} {f : Fed} {t T : Time} (hf : Reached limit f)
    (h : AnswerFacts f t .noIterations T) :
    f.tc.granted < cTerm ∧ f.tc.getNextPossibleTime < cTerm ∧ T < cTerm ∧
    ∃ e, T = allowedTime f.tc.info f.tc.granted e ∧ f.tc.getNextPossibleTime ≤ e ∧
      e ≤ max t f.tc.getNextPossibleTime := by
  obtain ⟨w, g, hw, hiw, hg, _, hlt, _, hT⟩ := h
  simp only [reduceCtorEq, if_false] at hT
  have hct : cTerm < maxVal := by decide
  have gg := GoodTime.congr hg hiw.good
  have e1 : g.granted = f.tc.granted := (congrArg Core.granted hg).trans hw.granted
  have e2 : g.grantBase = f.tc.grantBase := (congrArg Core.grantBase hg).trans hw.base
  have e3 : g.info = f.tc.info := (congrArg Core.info hg).trans hw.info
  have e4 : g.iterating = .noIterations := (congrArg Core.iterating hg).trans hw.iterating
  have e5 : g.requested = max t f.tc.getNextPossibleTime := (congrArg Core.requested hg).trans hw.requested
  have e6 : g.getNextPossibleTime = f.tc.getNextPossibleTime := by unfold getNextPossibleTime; rw [e1, e2, e3]
  have hv : f.tc.getNextPossibleTime ≤ g.value := by
    rw [show g.value = w.tc.value from congrArg Core.value hg]; exact hw.value
  have hm : f.tc.getNextPossibleTime ≤ g.message := by
    rw [show g.message = w.tc.message from congrArg Core.message hg]; exact hw.message
  have hbase := hf.inv.good.base
  have hgr : g.granted ≤ g.nextExec := nextExec_ge g gg (by
    have := nextPossible_ge' f.tc hf.inv.good
    rw [e1, e5]; omega)
  have hglt : g.granted < cTerm := by omega
  obtain ⟨e, h1, h2, h3, h4, h5⟩ := nextExec_noIter g gg e4 hglt (by rw [e5, e6]; omega)
  have hd := gg.delta.2.1
  have hev : min g.message g.value ≤ g.eventTime := by unfold eventTime; split <;> omega
  have hne : f.tc.getNextPossibleTime ≤ e := by
    cases hu : g.info.uninterruptible with
    | true => have := h4 hu; omega
    | false =>
      have := h5 hu
      rw [this]
      split
      · omega
      · omega
  have hge := allowedTime_ge g.info g.grantBase e
  refine ⟨by omega, by omega, by omega, e, ?_, hne, by omega⟩
  rw [hT, h1, e3, e2, hbase]

theorem limit_noIter (f : Fed) (limit : Int) : f.limitIter limit .noIterations = .noIterations := by
  unfold limitIter; simp

/-- **C01** (minimum step).  The answer to a request without iteration is at least one minimum step later than
the time granted before, or it is the end of the simulation. -/
theorem C01_minimum_step (limit : Int) (f : Fed) (t : Time) (nv nm : Time) (ops : List FedOp)
    (hf : Reached limit f) (hs : f.state = .executing) (hm : f.mode = true) (ht : t ≤ maxVal) (ho : Quiet f ops)
    (T : Time) (hT : T ∈ f.grants limit (.timeRequest t .noIterations nv nm :: ops)) :
    f.tc.granted + f.tc.info.timeDelta ≤ T ∨ T = maxVal := by
  rcases grants_request limit f t .noIterations nv nm ops hf.inv hs hm ht ho with h | ⟨T', h, h'⟩
  · rw [h] at hT; cases hT
  · rw [h] at hT
    simp only [List.mem_singleton] at hT
    subst hT
    rcases h' with h' | h'
    · exact Or.inr h'
    · rw [limit_noIter] at h'
      obtain ⟨h1, h2, h3, e, he, h4, _⟩ := noIter_facts hf h'
      have hg := hf.inv.good
      have := nextPossible_ge f.tc.info f.tc.granted f.tc.grantBase hg.base hg.delta.1
      have := allowedTime_ge f.tc.info f.tc.granted e
      have hct : cTerm < maxVal := by decide
      unfold getNextPossibleTime at h2 h4
      left; omega

example : Reached 100 demo ∧ demo.state = .executing ∧ demo.mode = true ∧ (10 : Int) ≤ maxVal ∧
    Quiet demo [fromEight .timeRequest 20] ∧
    (10 : Int) ∈ demo.grants 100 [.timeRequest 10 .noIterations maxVal maxVal, fromEight .timeRequest 20] := by
  refine ⟨demo_reached, by decide, by decide, by decide, ?_, by decide⟩
  intro o ho
  simp only [List.mem_singleton] at ho
  subst ho
  exact ⟨⟨by decide, by decide⟩, by simp [FedOp.waiting, fromEight]⟩

/-! ### C02 and C03: specification of the permitted times -/

/-- With a period `p > 1 ns` and offset `o`, the times of the grid after the last grant `G`: the offset itself
while it lies ahead, else a positive number of periods after the later of `G` and the offset.  Without a
period every time qualifies. -/
def OnGrid (info : TCOptions) (G x : Time) : Prop :=
  1 < info.period → (G < info.offset ∧ x = info.offset) ∨
    ∃ k : Nat, 1 ≤ k ∧ x = max G info.offset + k * info.period

theorem allowed_onGrid (info : TCOptions) (G e : Time) (h : allowedTime info G e < cTerm) :
    OnGrid info G (allowedTime info G e) := by
  intro hp
  have hge := allowedTime_ge info G e
  rw [allowedTime_eq, if_pos ⟨hp, by omega⟩]
  split
  · rename_i h1; exact Or.inl ⟨h1.1, rfl⟩
  · right
    obtain ⟨k, hk, he⟩ := gridUp_grid (if G < info.offset then info.offset else G) info.period e (by omega)
    refine ⟨k, hk, ?_⟩
    rw [he]; split <;> omega

theorem allowed_least (info : TCOptions) (G e x : Time) (hx : x < cTerm) (he : e ≤ x) (hg : OnGrid info G x) :
    allowedTime info G e ≤ x := by
  rw [allowedTime_eq]
  by_cases hp : 1 < info.period
  · have hc : info.period > 1 ∧ e < cTerm := ⟨hp, by omega⟩
    rw [if_pos hc]
    rcases hg hp with ⟨h1, h2⟩ | ⟨k, hk, h2⟩
    · rw [if_pos ⟨h1, by omega⟩]; omega
    · have hkp : info.period ≤ k * info.period := by
        have : (1 : Int) * info.period ≤ k * info.period := Int.mul_le_mul_of_nonneg_right (by omega) (by omega)
        omega
      split
      · omega
      · have hm : (if G < info.offset then info.offset else G) = max G info.offset := by split <;> omega
        rw [hm, h2]
        exact gridUp_least _ _ _ (by omega) k hk (by omega)
  · rw [if_neg (by omega)]; exact he

/-- **C03** (the computed time).  The time the coordinator computes for a wish `t` (below the end of the
simulation) after a grant `G` is on the grid, not before `t`, and no grid time from `t` on precedes it. -/
theorem C03_first_grid_time (info : TCOptions) (G t : Time) (h : allowedTime info G t < cTerm) :
    OnGrid info G (allowedTime info G t) ∧ t ≤ allowedTime info G t ∧
    ∀ x, x < cTerm → t ≤ x → OnGrid info G x → allowedTime info G t ≤ x :=
  ⟨allowed_onGrid info G t h, allowedTime_ge info G t, fun x hx ht hg => allowed_least info G t x hx ht hg⟩

example : allowedTime { period := 10, offset := 3 } 13 14 < cTerm ∧
    allowedTime { period := 10, offset := 3 } 13 14 = 23 := by decide

/-- **C03** (one request).  The answer to a request without iteration lies on the grid of the federate's period
and offset, or is the end of the simulation. -/
theorem C03_answer_on_grid (limit : Int) (f : Fed) (t : Time) (nv nm : Time) (ops : List FedOp)
    (hf : Reached limit f) (hs : f.state = .executing) (hm : f.mode = true) (ht : t ≤ maxVal) (ho : Quiet f ops)
    (T : Time) (hT : T ∈ f.grants limit (.timeRequest t .noIterations nv nm :: ops)) :
    OnGrid f.tc.info f.tc.granted T ∨ T = maxVal := by
  rcases grants_request limit f t .noIterations nv nm ops hf.inv hs hm ht ho with h | ⟨T', h, h'⟩
  · rw [h] at hT; cases hT
  · rw [h] at hT
    simp only [List.mem_singleton] at hT
    subst hT
    rcases h' with h' | h'
    · exact Or.inr h'
    · rw [limit_noIter] at h'
      obtain ⟨_, _, h3, e, he, _, _⟩ := noIter_facts hf h'
      left; rw [he]; exact allowed_onGrid _ _ _ (by rw [← he]; exact h3)

/-- A time a request made after the grant `G` may be answered with: one minimum step later, on the grid; the
first time after 0 is not before the offset (and the offset itself only if it exceeds the minimum step, see
the example below); later times leave a whole period. -/
def Permitted (info : TCOptions) (G x : Time) : Prop :=
  G + info.timeDelta ≤ x ∧ OnGrid info G x ∧
  (G = 0 → info.offset ≤ x ∧ (0 < info.offset → x = info.offset → info.timeDelta < info.offset)) ∧
  (G ≠ 0 → G + info.period ≤ x)

theorem stepLoop_least (p d : Int) (hp : 0 < p) (x : Int) (hd : d ≤ x) : ∀ (n : Nat) (r : Int), r ≤ x → (x - r) % p = 0 →
    stepLoop p d n r ≤ x := by
  intro n
  induction n with
  | zero => intro r h _; exact h
  | succ n ih =>
    intro r h hm
    unfold stepLoop
    split
    · apply ih
      · have h1 := Int.mul_ediv_add_emod (x - r) p
        rw [hm] at h1
        have h2 : 0 < (x - r) / p := by
          apply Int.lt_of_not_ge
          intro h'
          have : p * ((x - r) / p) ≤ 0 := Int.mul_nonpos_of_nonneg_of_nonpos (by omega) h'
          omega
        have h3 : p * 1 ≤ p * ((x - r) / p) := Int.mul_le_mul_of_nonneg_left (by omega) (by omega)
        omega
      · rw [show x - (r + p) = x - r - p by omega, Int.sub_emod, hm, Int.emod_self]; simp
    · omega

theorem nextPossible_le (info : TCOptions) (G x : Time) (h0 : 0 ≤ info.offset) (hd : 1 ≤ info.timeDelta) (hx : x < cTerm)
    (h : Permitted info G x) (hend : G ≠ 0 → G < cTerm - max info.timeDelta info.period) : nextPossible info G G ≤ x := by
  obtain ⟨h1, h2, h3, h4⟩ := h
  have hte : timeEpsilon = 1 := rfl
  unfold nextPossible
  split
  · rename_i hG
    subst hG
    obtain ⟨h5, h6⟩ := h3 rfl
    split
    · exact h5
    · split
      · rename_i ho
        apply allowed_least _ _ _ _ hx _ h2
        by_cases hp : 1 < info.period
        · rcases h2 hp with h | ⟨k, hk, h⟩
          · omega
          · have : (1 : Int) * info.period ≤ k * info.period := Int.mul_le_mul_of_nonneg_right (by omega) (by omega)
            omega
        · have : max info.timeDelta info.period = info.timeDelta := by omega
          omega
      · by_cases hp : info.period ≤ timeEpsilon
        · rw [if_pos hp]; omega
        · rw [if_neg hp]
          rename_i ho
          apply stepLoop_least _ _ (by omega) _ (by omega)
          · rcases h2 (by omega) with h | ⟨k, hk, h⟩
            · have := h6 (by omega) h.2; omega
            · have : (1 : Int) * info.period ≤ k * info.period := Int.mul_le_mul_of_nonneg_right (by omega) (by omega)
              omega
          · rcases h2 (by omega) with h | ⟨k, hk, h⟩
            · have := h6 (by omega) h.2; omega
            · have hm : max (0 : Int) info.offset = info.offset := by omega
              rw [h, hm, show info.offset + k * info.period - (info.offset + info.period) = (k - 1) * info.period by
                rw [Int.sub_mul]; omega]
              exact Int.mul_emod_left _ _
  · rename_i hG
    have h5 := h4 hG
    have h6 := hend hG
    split
    · omega
    · apply allowed_least _ _ _ _ hx _ h2
      omega

/-- **C02** (no overshoot).  The answer to a request for `t` without iteration is not later than any permitted
time from `t` on - in particular exactly `t` at most when `t` itself is permitted - unless the simulation
ended. -/
theorem C02_no_overshoot (limit : Int) (f : Fed) (t : Time) (nv nm : Time) (ops : List FedOp)
    (hf : Reached limit f) (hs : f.state = .executing) (hm : f.mode = true) (ht : t ≤ maxVal) (ho : Quiet f ops)
    (T : Time) (hT : T ∈ f.grants limit (.timeRequest t .noIterations nv nm :: ops)) :
    (∀ x, x < cTerm → t ≤ x → Permitted f.tc.info f.tc.granted x → T ≤ x) ∨ T = maxVal := by
  rcases grants_request limit f t .noIterations nv nm ops hf.inv hs hm ht ho with h | ⟨T', h, h'⟩
  · rw [h] at hT; cases hT
  · rw [h] at hT
    simp only [List.mem_singleton] at hT
    subst hT
    rcases h' with h' | h'
    · exact Or.inr h'
    · left
      intro x hx htx hp
      rw [limit_noIter] at h'
      obtain ⟨h1, h2, h3, e, he, h4, h5⟩ := noIter_facts hf h'
      have hg := hf.inv.good
      have hct : cTerm < maxVal := by decide
      have hnp : f.tc.getNextPossibleTime ≤ x := by
        unfold getNextPossibleTime at h2 ⊢
        rw [hg.base] at h2 ⊢
        apply nextPossible_le _ _ _ hg.offset.1 hg.delta.1 hx hp
        intro hne
        unfold nextPossible at h2
        rw [if_neg hne] at h2
        split at h2
        · omega
        · omega
      rw [he]
      exact allowed_least _ _ _ _ hx (by omega) hp.2.1

example : (10 : Int) < cTerm ∧ Permitted demo.tc.info demo.tc.granted 10 := by
  refine ⟨by decide, ?_⟩
  have h1 : demo.tc.granted = 0 := by decide
  have h2 : demo.tc.info = {} := by decide
  rw [h1, h2]
  exact ⟨by decide, fun h => absurd h (by decide), fun _ => by decide, fun h => absurd rfl h⟩

/-- A request with iteration is answered with the current time, or a time not later than any grid time at or
after both the request and the current time, or the end of the simulation. -/
theorem C02_no_overshoot_iterating (limit : Int) (f : Fed) (t : Time) (nv nm : Time) (ops : List FedOp) (it : IterReq)
    (hf : Reached limit f) (hs : f.state = .executing) (hm : f.mode = true) (ht : t ≤ maxVal) (ho : Quiet f ops)
    (hit : f.limitIter limit it ≠ .noIterations)
    (T : Time) (hT : T ∈ f.grants limit (.timeRequest t it nv nm :: ops)) :
    T = f.tc.granted ∨ T = maxVal ∨
    ∀ x, x < cTerm → t ≤ x → f.tc.granted ≤ x → OnGrid f.tc.info f.tc.granted x → T ≤ x := by
  rcases grants_request limit f t it nv nm ops hf.inv hs hm ht ho with h | ⟨T', h, h'⟩
  · rw [h] at hT; cases hT
  · rw [h] at hT
    simp only [List.mem_singleton] at hT
    subst hT
    rcases h' with h' | h'
    · exact Or.inr (Or.inl h')
    · obtain ⟨w, g, hw, hiw, hg, _, hlt, _, hT⟩ := h'
      by_cases hfi : f.limitIter limit it = .forceIteration
      · rw [if_pos hfi] at hT; exact Or.inl hT
      · rw [if_neg hfi] at hT
        have e1 : g.granted = f.tc.granted := (congrArg Core.granted hg).trans hw.granted
        have e2 : g.grantBase = f.tc.grantBase := (congrArg Core.grantBase hg).trans hw.base
        have e3 : g.info = f.tc.info := (congrArg Core.info hg).trans hw.info
        have e4 : g.iterating = f.limitIter limit it := (congrArg Core.iterating hg).trans hw.iterating
        have e5 : g.requested = asked f.tc t (f.limitIter limit it) := (congrArg Core.requested hg).trans hw.requested
        have e6 : g.requested = max t f.tc.granted := by
          rw [e5]; unfold asked; rw [if_neg hit, if_neg hfi]
        have gg := GoodTime.congr hg hiw.good
        have hge := nextExec_ge g gg (by omega)
        rcases nextExec_iter g (by rw [e4]; exact hit) (by omega) (by omega) with h | ⟨e, h, he, _⟩
        · left; omega
        · right; right
          intro x hx htx hgx hgrid
          rw [hT, h, e3, e2, hf.inv.good.base]
          exact allowed_least _ _ _ _ hx (by omega) hgrid

example : Reached 100 demo ∧ demo.limitIter 100 .iterateIfNeeded ≠ .noIterations ∧
    (10 : Int) ∈ demo.grants 100 [.timeRequest 10 .iterateIfNeeded maxVal maxVal, fromEight .timeRequest 20] :=
  ⟨demo_reached, by decide, by decide⟩

/-- The quirk behind the last condition of `Permitted`: with offset equal to the minimum step the offset, the
first time of the grid, is skipped (src/helics/core/TimeCoordinator.cpp:476-490): the earliest time after 0 is one
period later. -/
example : nextPossible { offset := 10, timeDelta := 10, period := 10 } 0 0 = 20 ∧
    OnGrid { offset := 10, timeDelta := 10, period := 10 } 0 10 := by
  refine ⟨by decide, fun _ => Or.inl (by decide)⟩

end Grants
end Verif
