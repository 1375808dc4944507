import Verif.Lemmas.FilterHold
/-!
# Lemmas about filters: what is kept at every step
-/
namespace Verif.Filt

/-- the time messages among the events -/
def Ev.toTime : Ev → Option (Int × Int)
  | .time f x => some (f, x)
  | _ => none

/-- what is kept: `hs`, `rs` and `ts` are what should have been sent on, received, and requested -/
structure Env.Inv (E : Env) (y : Sys) (hs : List (Msg × (Int × Int))) (rs : List (Int × Msg))
    (ts : List (Int × Int)) : Prop where
  inn : y.ff.In E
  home : y.home = E.home
  hand : (y.handed.map (fun c => (c.msg, c.dst)) ++ y.wire.flatMap E.pendHand).Perm hs
  recv : (y.received ++ y.wire.flatMap E.pendRecv).Perm rs
  ok : ∀ c ∈ y.wire, E.WireOk c
  keys : y.ff.ongoing.Perm (y.wire.filterMap E.key)
  nodup : y.ff.ongoing.Nodup
  lt : ∀ p ∈ y.ff.ongoing, p.2 < y.ff.counter
  keysD : y.ff.ongoingDest.Perm (y.wire.filterMap E.keyDest)
  nodupD : y.ff.ongoingDest.Nodup
  leD : ∀ p ∈ y.ff.ongoingDest, p.2 ≤ y.ff.counter
  crash : y.crashed = false
  holds : HoldOk y.holds y.ff.ongoing ts
  held : ∀ fid, fid ∈ y.held ↔ busy y.ff.ongoingDest fid = true

theorem mem_perm_eraseIdx {α} : ∀ {l : List α} {j : Nat} {c : α}, l[j]? = some c → l.Perm (c :: l.eraseIdx j)
  | [], j, c, h => by simp at h
  | x :: xs, 0, c, h => by simp at h; subst h; exact .refl _
  | x :: xs, j + 1, c, h => by
    simp only [List.getElem?_cons_succ] at h
    simp only [List.eraseIdx_cons_succ]
    exact ((mem_perm_eraseIdx h).cons x).trans (.swap ..)

theorem mem_of_eraseIdx {α} {l : List α} {j : Nat} {c : α} (h : c ∈ l.eraseIdx j) : c ∈ l :=
  (List.eraseIdx_sublist l j).mem h

theorem flatMap_perm {α β} {f : α → List β} {l l' : List α} (h : l.Perm l') : (l.flatMap f).Perm (l'.flatMap f) :=
  h.flatMap_right f

/-- the fields of the filter federate a marker changes -/
theorem mark_fields (s : FF) (fid t : Int) (hn : (fid, s.counter) ∉ s.ongoing) :
    ({ s with counter := s.counter + 1 }.mark fid s.counter t).1.ongoing = s.ongoing ++ [(fid, s.counter)] ∧
    ({ s with counter := s.counter + 1 }.mark fid s.counter t).1.ongoingDest = s.ongoingDest ∧
    ({ s with counter := s.counter + 1 }.mark fid s.counter t).1.counter = s.counter + 1 ∧
    ({ s with counter := s.counter + 1 }.mark fid s.counter t).1.fed = s.fed ∧
    ({ s with counter := s.counter + 1 }.mark fid s.counter t).1.epts = s.epts ∧
    ({ s with counter := s.counter + 1 }.mark fid s.counter t).1.ops = s.ops := by
  unfold FF.mark FF.addReturn
  dsimp only
  rw [if_neg hn]
  exact ⟨rfl, rfl, rfl, rfl, rfl, rfl⟩

theorem unmark_fields (s : FF) (fid pid : Int) :
    (s.unmark fid pid).1.ongoing = s.ongoing.filter (fun p => p ≠ (fid, pid)) ∧
    (s.unmark fid pid).1.ongoingDest = s.ongoingDest ∧
    (s.unmark fid pid).1.counter = s.counter ∧ (s.unmark fid pid).1.fed = s.fed ∧
    (s.unmark fid pid).1.epts = s.epts ∧ (s.unmark fid pid).1.ops = s.ops := by
  unfold FF.unmark
  dsimp only
  exact clearReturn_same _ _

theorem FF.In.of_eq {s s' : FF} {E : Env} (h : s.In E) (h1 : s'.fed = s.fed) (h2 : s'.epts = s.epts)
    (h3 : s'.ops = s.ops) : s'.In E := ⟨h1.trans h.fed, h2.trans h.epts, h3.trans h.ops⟩

/-- what the marker part of `Env.Res` amounts to -/
theorem Env.Res.fields {E : Env} {s s' : FF} {fid : Int} {es : List Eff} {spec} (h : E.Res s s' fid es spec)
    (hlt : ∀ p ∈ s.ongoing, p.2 < s.counter) :
    s'.ongoing = s.ongoing ++ (es.filterMap Eff.toWire).filterMap E.key ∧ s'.ongoingDest = s.ongoingDest ∧
    s.counter ≤ s'.counter ∧ (∀ p ∈ (es.filterMap Eff.toWire).filterMap E.key, p.2 = s.counter ∧
      p.2 < s'.counter) ∧ ((es.filterMap Eff.toWire).filterMap E.key).length ≤ 1 ∧
    s'.fed = s.fed ∧ s'.epts = s.epts ∧ s'.ops = s.ops := by
  rcases h.mark with ⟨m1, m2, -⟩ | ⟨t, a, b, m1, m2, -⟩
  · rw [m1, m2]; simp
  · have hn : (fid, s.counter) ∉ s.ongoing := fun hm => absurd (hlt _ hm) (Int.lt_irrefl _)
    obtain ⟨f1, f2, f3, f4, f5, f6⟩ := mark_fields s fid t hn
    rw [m1, m2, f1, f2, f3, f4, f5, f6]
    refine ⟨rfl, rfl, by omega, ?_, by simp, rfl, rfl, rfl⟩
    intro p hp
    rw [List.mem_singleton] at hp
    subst hp
    dsimp only
    omega

theorem Env.Res.holdOk {E : Env} {s s' : FF} {fid : Int} {es : List Eff} {spec} (h : E.Res s s' fid es spec)
    (hlt : ∀ p ∈ s.ongoing, p.2 < s.counter) {y : Sys} {ts} (hy : HoldOk y.holds s.ongoing ts) :
    HoldOk (y.effects es).holds s'.ongoing ts := by
  rcases h.mark with ⟨m1, -, m3⟩ | ⟨t, a, b, m1, -, m3, m4, m5⟩
  · rw [m1, holds_nil y m3]; exact hy
  · have hn : (fid, s.counter) ∉ s.ongoing := fun hm => absurd (hlt _ hm) (Int.lt_irrefl _)
    rw [m3, effects_append, effects_append, holds_nil _ m5, m1]
    refine mark_holds ?_ fid s.counter t hn
    rw [holds_nil y m4]
    exact hy

/-- **the invariant after taking a message (further) through a chain**: `y` is the state before, with the
command which came back already removed and its contribution taken out -/
theorem Env.Inv.res {E : Env} {y : Sys} {s s' : FF} {fid : Int} {es : List Eff} {hs spec rs ts}
    (h : E.Inv { y with ff := s } hs rs ts) (hr : E.Res s s' fid es spec) :
    E.Inv ({ y with ff := s' }.effects es) (hs ++ spec) rs ts := by
  obtain ⟨o1, o2, o3, o4⟩ := effects_out { y with ff := s' } es
  obtain ⟨g1, g2, g3⟩ := effects_ff { y with ff := s' } es
  have hlt : ∀ p ∈ s.ongoing, p.2 < s.counter := h.lt
  obtain ⟨f1, f2, f3, f4, f5, f6, f7, f8⟩ := hr.fields hlt
  have hk : s.ongoing.Perm (y.wire.filterMap E.key) := h.keys
  have hkd : s.ongoingDest.Perm (y.wire.filterMap E.keyDest) := h.keysD
  have hkd0 : (es.filterMap Eff.toWire).filterMap E.keyDest = [] := by
    rw [List.filterMap_eq_nil_iff]; exact hr.plain.keyD
  refine ⟨?_, ?_, ?_, ?_, ?_, ?_, ?_, ?_, ?_, ?_, ?_, ?_, ?_, ?_⟩
  · rw [g1]; exact h.inn.of_eq f6 f7 f8
  · rw [g2]; exact h.home
  · rw [o1, o2]
    have a := h.hand
    have b := hr.hand
    unfold Env.effHand at b
    rw [List.perm_iff_count] at a b ⊢
    intro x
    have := a x; have := b x
    simp only [List.map_append, List.flatMap_append, List.count_append] at *
    omega
  · rw [o3, o2]
    have a := h.recv
    have b := hr.recv
    unfold Env.effRecv at b
    have b1 := (List.append_eq_nil_iff.mp b).1
    have b2 := (List.append_eq_nil_iff.mp b).2
    rw [List.flatMap_append, b1, b2, List.append_nil, List.append_nil]
    exact a
  · rw [o2]
    intro c hc
    rw [List.mem_append] at hc
    exact hc.elim (h.ok c) (hr.plain.wireOk c)
  · rw [g1, o2, List.filterMap_append]
    show s'.ongoing.Perm _
    rw [f1]
    exact hk.append_right _
  · rw [g1]
    show s'.ongoing.Nodup
    rw [f1, List.nodup_append]
    refine ⟨h.nodup, ?_, ?_⟩
    · generalize (es.filterMap Eff.toWire).filterMap E.key = l at f5
      match l, f5 with
      | [], _ => exact .nil
      | [a], _ => simp
    · intro a ha b hb e
      have := hlt a ha
      have := (f4 b hb).1
      rw [e] at *
      omega
  · rw [g1]
    show ∀ p ∈ s'.ongoing, p.2 < s'.counter
    rw [f1]
    intro p hp
    rw [List.mem_append] at hp
    rcases hp with hp | hp
    · exact Int.lt_of_lt_of_le (hlt p hp) f3
    · exact (f4 p hp).2
  · rw [g1, o2, List.filterMap_append, hkd0, List.append_nil]
    show s'.ongoingDest.Perm _
    rw [f2]; exact hkd
  · rw [g1]
    show s'.ongoingDest.Nodup
    rw [f2]; exact h.nodupD
  · rw [g1]
    show ∀ p ∈ s'.ongoingDest, p.2 ≤ s'.counter
    rw [f2]
    intro p hp
    exact Int.le_trans (h.leD p hp) f3
  · rw [o4]
    have := hr.plain.crash
    simp only [this, decide_false, Bool.or_false]
    exact h.crash
  · rw [g1]
    exact hr.holdOk hlt (y := { y with ff := s' }) h.holds
  · intro g
    rw [g1, held_nil _ hr.plain.held]
    show g ∈ y.held ↔ busy s'.ongoingDest g = true
    rw [f2]; exact h.held g

theorem perm_remove {l m : List (Int × Int)} {k : Int × Int} (hn : l.Nodup) (h : l.Perm (k :: m)) :
    (l.filter (fun p => p ≠ k)).Perm m := by
  have h1 := h.filter (fun p => decide (p ≠ k))
  have hn' : (k :: m).Nodup := h.nodup_iff.mp hn
  rw [List.nodup_cons] at hn'
  rw [List.filter_cons_of_neg (by simp)] at h1
  have h2 : m.filter (fun p => decide (p ≠ k)) = m := by
    rw [List.filter_eq_self]
    intro p hp
    simp only [ne_eq, decide_eq_true_eq]
    intro e; exact hn'.1 (e ▸ hp)
  rw [h2] at h1
  exact h1

/-- **the invariant when an answer of a source filter arrives** -/
theorem Env.Inv.answer {E : Env} {y : Sys} {hs rs ts} (h : E.Inv y hs rs ts) {j : Nat} {c : Cmd}
    (hj : y.wire[j]? = some c) {k : Int × Int} (hkey : E.key c = some k) (hkd : E.keyDest c = none)
    (hpr : E.pendRecv c = []) {s1 : FF} {fid : Int} {ea eb : List Eff} {spec}
    (hr : E.Res y.ff s1 fid (ea ++ eb) spec) (hspec : spec.Perm (E.pendHand c))
    (hb : ∀ e ∈ eb, e.isHold = false) :
    E.Inv ({ y with wire := y.wire.eraseIdx j, ff := (s1.unmark k.1 k.2).1 }.effects
      (ea ++ (s1.unmark k.1 k.2).2 ++ eb)) hs rs ts := by
  obtain ⟨u1, u2, u3, u4, u5⟩ := unmark_effs s1 k.1 k.2
  obtain ⟨o1, o2, o3, o4⟩ := effects_out { y with wire := y.wire.eraseIdx j, ff := (s1.unmark k.1 k.2).1 }
    (ea ++ (s1.unmark k.1 k.2).2 ++ eb)
  obtain ⟨g1, g2, g3⟩ := effects_ff { y with wire := y.wire.eraseIdx j, ff := (s1.unmark k.1 k.2).1 }
    (ea ++ (s1.unmark k.1 k.2).2 ++ eb)
  have hY : E.Inv ({ y with ff := s1 }.effects (ea ++ eb)) (hs ++ spec) rs ts := Env.Inv.res (y := y) h hr
  obtain ⟨p1, p2, p3, p4⟩ := effects_out { y with ff := s1 } (ea ++ eb)
  obtain ⟨q1, q2, q3⟩ := effects_ff { y with ff := s1 } (ea ++ eb)
  obtain ⟨v1, v2, v3, v4, v5, v6⟩ := unmark_fields s1 k.1 k.2
  have hperm : y.wire.Perm (c :: y.wire.eraseIdx j) := mem_perm_eraseIdx hj
  -- the lists of effects have the same contents
  have w1 : (ea ++ (s1.unmark k.1 k.2).2 ++ eb).filterMap Eff.toHanded = (ea ++ eb).filterMap Eff.toHanded := by
    simp only [List.filterMap_append, u2, List.append_nil]
  have w2 : (ea ++ (s1.unmark k.1 k.2).2 ++ eb).filterMap Eff.toWire = (ea ++ eb).filterMap Eff.toWire := by
    simp only [List.filterMap_append, u1, List.append_nil]
  have w3 : (ea ++ (s1.unmark k.1 k.2).2 ++ eb).filterMap Eff.toRecv = (ea ++ eb).filterMap Eff.toRecv := by
    simp only [List.filterMap_append, u3, List.append_nil]
  rw [w1] at o1
  rw [w2] at o2
  rw [w3] at o3
  have hwp : ({ y with ff := s1 }.effects (ea ++ eb)).wire.Perm
      (c :: ({ y with wire := y.wire.eraseIdx j, ff := (s1.unmark k.1 k.2).1 }.effects
        (ea ++ (s1.unmark k.1 k.2).2 ++ eb)).wire) := by
    rw [p2, o2]; exact hperm.append_right _
  have hkeys : s1.ongoing.Perm (k :: ({ y with wire := y.wire.eraseIdx j, ff := (s1.unmark k.1 k.2).1 }.effects
        (ea ++ (s1.unmark k.1 k.2).2 ++ eb)).wire.filterMap E.key) := by
    have a := hY.keys
    rw [q1] at a
    have b := hwp.filterMap E.key
    rw [List.filterMap_cons, hkey] at b
    exact a.trans b
  have hnd : s1.ongoing.Nodup := by have a := hY.nodup; rw [q1] at a; exact a
  have hmem : k ∈ s1.ongoing := hkeys.symm.mem_iff.mp (List.mem_cons_self ..)
  have hkk : (k.1, k.2) = k := rfl
  refine ⟨?_, ?_, ?_, ?_, ?_, ?_, ?_, ?_, ?_, ?_, ?_, ?_, ?_, ?_⟩
  · rw [g1]
    have a := hY.inn
    rw [q1] at a
    exact FF.In.of_eq (s := s1) a v4 v5 v6
  · rw [g2]; exact h.home
  · have a := hY.hand
    have b := hwp.flatMap_right E.pendHand
    rw [p1] at a
    rw [o1]
    rw [List.perm_iff_count] at a b hspec ⊢
    intro x
    have := a x; have := b x; have := hspec x
    simp only [List.flatMap_cons, List.count_append] at *
    omega
  · have a := hY.recv
    have b := hwp.flatMap_right E.pendRecv
    rw [p3] at a
    rw [o3]
    rw [List.flatMap_cons, hpr, List.nil_append] at b
    exact (b.symm.append_left _).trans a
  · intro x hx
    exact hY.ok x (hwp.symm.mem_iff.mp (List.mem_cons_of_mem _ hx))
  · rw [g1]
    show (s1.unmark k.1 k.2).1.ongoing.Perm _
    rw [v1, hkk]
    exact perm_remove hnd hkeys
  · rw [g1]
    show (s1.unmark k.1 k.2).1.ongoing.Nodup
    rw [v1]
    exact hnd.filter _
  · rw [g1]
    show ∀ p ∈ (s1.unmark k.1 k.2).1.ongoing, p.2 < (s1.unmark k.1 k.2).1.counter
    rw [v1, v3]
    intro p hp
    have a := hY.lt
    rw [q1] at a
    exact a p (List.mem_filter.mp hp).1
  · rw [g1]
    show (s1.unmark k.1 k.2).1.ongoingDest.Perm _
    rw [v2]
    have a := hY.keysD
    rw [q1] at a
    have b := hwp.filterMap E.keyDest
    rw [List.filterMap_cons, hkd] at b
    exact a.trans b
  · rw [g1]
    show (s1.unmark k.1 k.2).1.ongoingDest.Nodup
    rw [v2]
    have a := hY.nodupD
    rw [q1] at a
    exact a
  · rw [g1]
    show ∀ p ∈ (s1.unmark k.1 k.2).1.ongoingDest, p.2 ≤ (s1.unmark k.1 k.2).1.counter
    rw [v2, v3]
    have a := hY.leD
    rw [q1] at a
    exact a
  · rw [o4]
    have := hr.plain.crash
    rw [List.mem_append] at this
    have hc : Eff.crash ∉ ea ++ (s1.unmark k.1 k.2).2 ++ eb := by
      simp only [List.mem_append]
      rintro ((h | h) | h)
      · exact this (.inl h)
      · exact u5 h
      · exact this (.inr h)
    simp only [hc, decide_false, Bool.or_false]
    exact h.crash
  · rw [g1, effects_append, effects_append, holds_nil _ hb]
    refine unmark_holds ?_ k.1 k.2 hmem
    have a := hY.holds
    rw [q1, effects_append, holds_nil _ hb] at a
    have hsame : ∀ (s : FF) (w : List Cmd) (es : List Eff),
        ({ y with wire := w, ff := s }.effects es).holds = (y.effects es).holds := by
      intro s w es
      unfold Sys.effects
      have : ∀ (es : List Eff) (z z' : Sys), z.holds = z'.holds →
          (es.foldl Sys.effect z).holds = (es.foldl Sys.effect z').holds := by
        intro es
        induction es with
        | nil => intro z z' h; exact h
        | cons e es ih =>
          intro z z' hz
          rw [List.foldl_cons, List.foldl_cons]
          apply ih
          simp only [Sys.holds, Holds.mk.injEq] at hz
          obtain ⟨z1, z2, z3⟩ := hz
          cases e with
          | wire c => simp [Sys.effect, Sys.holds, z1, z2, z3]
          | deliver c => simp only [Sys.effect]; split <;> simp [Sys.holds, z1, z2, z3]
          | give c => simp [Sys.effect, Sys.holds, z1, z2, z3]
          | block f => simp only [Sys.effect, Sys.addBlock, Sys.holds]; rw [z1, z2, z3]
          | unblock f =>
            simp only [Sys.effect, Sys.dropBlock, z1]
            split <;> simp [Sys.holds, z1, z2, z3]
          | blockFed f => simp [Sys.effect, Sys.holds, z1, z2, z3]
          | unblockFed f => simp [Sys.effect, Sys.holds, z1, z2, z3]
          | crash => simp [Sys.effect, Sys.holds, z1, z2, z3]
      exact this es _ _ rfl
    rw [hsame]
    have hs2 := hsame s1 y.wire ea
    rw [hs2] at a
    exact a
  · intro g
    rw [g1]
    have hh : ∀ e ∈ ea ++ (s1.unmark k.1 k.2).2 ++ eb, e.isHeld = false := by
      intro e he
      simp only [List.mem_append] at he
      rcases he with (he | he) | he
      · exact hr.plain.held e (List.mem_append_left _ he)
      · exact u4 e he
      · exact hr.plain.held e (List.mem_append_right _ he)
    rw [held_nil _ hh]
    show g ∈ y.held ↔ busy (s1.unmark k.1 k.2).1.ongoingDest g = true
    rw [v2]
    have a := hY.held g
    rw [q1, held_nil _ hr.plain.held] at a
    exact a

/-- **the invariant when a request arrives at its filter** -/
theorem Env.Inv.request {E : Env} {y : Sys} {hs rs ts} (h : E.Inv y hs rs ts) {j : Nat} {c : Cmd}
    (hj : y.wire[j]? = some c) {cs : List Cmd} (hr : E.HomeRes c cs) :
    E.Inv ({ y with wire := y.wire.eraseIdx j }.effects (cs.map Eff.deliver)) hs rs ts := by
  obtain ⟨c1, c2, c3, c4, c5, c6⟩ := ofCmds E cs
  obtain ⟨o1, o2, o3, o4⟩ := effects_out { y with wire := y.wire.eraseIdx j } (cs.map Eff.deliver)
  obtain ⟨g1, g2, g3⟩ := effects_ff { y with wire := y.wire.eraseIdx j } (cs.map Eff.deliver)
  have hperm : y.wire.Perm (c :: y.wire.eraseIdx j) := mem_perm_eraseIdx hj
  have hh := hr.hand
  have hrv := hr.recv
  unfold Env.effHand at hh
  unfold Env.effRecv at hrv
  refine ⟨?_, ?_, ?_, ?_, ?_, ?_, ?_, ?_, ?_, ?_, ?_, ?_, ?_, ?_⟩
  · rw [g1]; exact h.inn
  · rw [g2]; exact h.home
  · rw [o1, o2]
    have a := h.hand
    have b := hperm.flatMap_right E.pendHand
    rw [List.perm_iff_count] at a b hh ⊢
    intro x
    have := a x; have := b x; have := hh x
    simp only [List.map_append, List.flatMap_append, List.flatMap_cons, List.count_append] at *
    omega
  · rw [o2, o3]
    have a := h.recv
    have b := hperm.flatMap_right E.pendRecv
    rw [List.perm_iff_count] at a b hrv ⊢
    intro x
    have := a x; have := b x; have := hrv x
    simp only [List.flatMap_append, List.flatMap_cons, List.count_append] at *
    omega
  · rw [o2, c1]
    intro x hx
    rw [List.mem_append] at hx
    exact hx.elim (fun hx => h.ok x (mem_of_eraseIdx hx)) (hr.ok x)
  · rw [g1, o2, c1, List.filterMap_append, hr.key]
    refine h.keys.trans ((hperm.filterMap E.key).trans ?_)
    rw [List.perm_iff_count]
    intro x
    rw [List.filterMap_cons]
    cases E.key c <;> simp [List.count_append, List.count_cons]
  · rw [g1]; exact h.nodup
  · rw [g1]; exact h.lt
  · rw [g1, o2, c1, List.filterMap_append, hr.keyD]
    refine h.keysD.trans ((hperm.filterMap E.keyDest).trans ?_)
    rw [List.perm_iff_count]
    intro x
    rw [List.filterMap_cons]
    cases E.keyDest c <;> simp [List.count_append, List.count_cons]
  · rw [g1]; exact h.nodupD
  · rw [g1]; exact h.leD
  · rw [o4]
    simp only [c6, decide_false, Bool.or_false]
    exact h.crash
  · rw [g1, holds_nil _ c5]; exact h.holds
  · intro g
    rw [g1, held_nil _ c4]
    exact h.held g

end Verif.Filt
