import Verif.Lemmas.GlobalRun
/-! A broker that keeps a master clock does not stop asking and announcing. -/
namespace Verif
namespace Glob

/-! ## The state in the table -/

theorem minTimeTe_state (m : TimeData) (d : DepInfo) : (Deps.minTimeTe m d).state = m.state ∧ (Deps.minTimeTe m d).next = m.next := by
  unfold Deps.minTimeTe
  split
  · exact ⟨rfl, rfl⟩
  · split <;> exact ⟨rfl, rfl⟩

theorem asking_rank {s : TimeState} (h : Asking s) : ¬ s.rank < TimeState.granted.rank := by
  rcases h with rfl | rfl | rfl <;> decide

/-- what the accumulator holds while everybody looked at so far is waiting -/
def Acc (m : TimeData) : Prop := Asking m.state ∨ (m.state = .error ∧ m.next = maxVal)

theorem minTimeImpl_acc {ig : FedId} {c : Int} {m : TimeData} {d : DepInfo} (hm : Acc m) (hd : Asking d.state)
    (hi : d.fedID ≠ ig) (hb : d.next ≤ maxVal) : Acc (Deps.minTimeImpl ig c m d) ∧
      (Asking m.state ∨ d.next < maxVal → Asking (Deps.minTimeImpl ig c m d).state) := by
  unfold Deps.minTimeImpl
  rw [if_neg (asking_rank hd), if_neg hi]
  obtain ⟨e1, e2⟩ := minTimeTe_state (Deps.minTimeNext { m with minDe := Deps.minTimeMinDe m.minDe d c } d c) d
  have key : Acc (Deps.minTimeNext { m with minDe := Deps.minTimeMinDe m.minDe d c } d c) ∧
      (Asking m.state ∨ d.next < maxVal → Asking (Deps.minTimeNext { m with minDe := Deps.minTimeMinDe m.minDe d c } d c).state) := by
    unfold Deps.minTimeNext
    split
    · exact ⟨Or.inl hd, fun _ => hd⟩
    · split
      · rename_i h1 h2
        dsimp only at h2 ⊢
        have hst : ∀ s, (s = d.state ∨ s = m.state) → Acc { m with state := s } ∧ (Asking m.state ∨ d.next < maxVal → Asking s) := by
          rintro s (rfl | rfl)
          · exact ⟨Or.inl hd, fun _ => hd⟩
          · refine ⟨hm, fun h => h.elim id fun h => ?_⟩
            rcases hm with k | k
            · exact k
            · rw [h2, k.2] at h; omega
        have := hst (if Deps.iterativeRequest d.state = true then
            if (!Deps.iterativeRequest m.state || decide (d.state.rank < m.state.rank)) = true then d.state else m.state
          else if d.state = .granted ∧ (!Deps.iterativeRequest m.state) = true then d.state else m.state) (by
            repeat' split
            all_goals first | exact Or.inl rfl | exact Or.inr rfl)
        exact this
      · rename_i h1 h2
        dsimp only at h1 h2 ⊢
        refine ⟨hm, fun h => h.elim id fun h => ?_⟩
        rcases hm with k | k
        · exact k
        · rw [k.2] at h1 h2; omega
  unfold Acc
  rw [e1, e2]
  exact key

theorem stream_asking (ds : Deps) (self : FedId) (c : Int)
    (ha : ∀ d ∈ ds, d.dependency = true → Asking d.state ∧ d.fedID ≠ invalidFed ∧ d.next ≤ maxVal)
    (hs : ∃ d ∈ ds, d.dependency = true ∧ d.connection ≠ .parent ∧ ¬ (FedId.isValid self = true ∧ d.minFedActual = self) ∧
      d.next < maxVal) : Asking (ds.minTimeUpstream true self invalidFed c).state := by
  have key : ∀ (ds : Deps) (acc : TimeData × Int), Acc acc.1 →
      (∀ d ∈ ds, d.dependency = true → Asking d.state ∧ d.fedID ≠ invalidFed ∧ d.next ≤ maxVal) →
      (Asking acc.1.state ∨ ∃ d ∈ ds, d.dependency = true ∧ d.connection ≠ .parent ∧
        ¬ (FedId.isValid self = true ∧ d.minFedActual = self) ∧ d.next < maxVal) →
      Asking (ds.foldl (fun (acc : TimeData × Int) dep =>
        if !dep.dependency then acc
        else if dep.connection = .parent then acc
        else if FedId.isValid self ∧ dep.minFedActual = self then acc
        else (Deps.minTimeImpl invalidFed c acc.1 dep, acc.2 + dep.sequenceCounter)) acc).1.state := by
    intro ds
    induction ds with
    | nil =>
      intro acc _ _ h
      rcases h with h | ⟨d, hd, _⟩
      · exact h
      · cases hd
    | cons d ds ih =>
      intro acc h1 h2 h3
      rw [List.foldl_cons]
      have h2' : ∀ x ∈ ds, x.dependency = true → Asking x.state ∧ x.fedID ≠ invalidFed ∧ x.next ≤ maxVal := fun x hx => h2 x (by simp [hx])
      by_cases c1 : d.dependency = true
      · by_cases c2 : d.connection = .parent
        · simp only [c1, Bool.not_true, Bool.false_eq_true, if_false, c2, if_true]
          refine ih _ h1 h2' (h3.imp id ?_)
          rintro ⟨x, hx, hh⟩
          rcases List.mem_cons.1 hx with rfl | hx
          · exact absurd c2 hh.2.1
          · exact ⟨x, hx, hh⟩
        · by_cases c3 : FedId.isValid self = true ∧ d.minFedActual = self
          · rw [if_neg (by simp [c1]), if_neg c2, if_pos c3]
            refine ih _ h1 h2' (h3.imp id ?_)
            rintro ⟨x, hx, hh⟩
            rcases List.mem_cons.1 hx with rfl | hx
            · exact absurd c3 hh.2.2.1
            · exact ⟨x, hx, hh⟩
          · rw [if_neg (by simp [c1]), if_neg c2, if_neg c3]
            obtain ⟨a1, a2, a3⟩ := h2 d (by simp) c1
            obtain ⟨k1, k2⟩ := minTimeImpl_acc (ig := invalidFed) (c := c) h1 a1 a2 a3
            refine ih _ k1 h2' ?_
            rcases h3 with h3 | ⟨x, hx, hh⟩
            · exact Or.inl (k2 (Or.inl h3))
            · rcases List.mem_cons.1 hx with rfl | hx
              · exact Or.inl (k2 (Or.inr hh.2.2.2))
              · exact Or.inr ⟨x, hx, hh⟩
      · simp only [c1, Bool.not_false, if_true]
        refine ih _ h1 h2' (h3.imp id ?_)
        rintro ⟨x, hx, hh⟩
        rcases List.mem_cons.1 hx with rfl | hx
        · exact absurd hh.1 c1
        · exact ⟨x, hx, hh⟩
  have h := key ds (TimeData.ofStart maxVal .error, 0) (Or.inr ⟨rfl, rfl⟩) ha (Or.inr hs)
  unfold Deps.minTimeUpstream
  dsimp only
  generalize ds.foldl _ _ = r at h ⊢
  have hf : (Deps.minTimeFinish r.1 true).state = r.1.state := by
    unfold Deps.minTimeFinish
    by_cases h : r.1.Te < r.1.minDe <;> simp [h]
  unfold Deps.minTimeInit
  rw [if_neg]
  · show Asking (Deps.minTimeFinish r.1 true).state
    rw [hf]; exact h
  · show ¬ (Deps.minTimeFinish r.1 true).state.rank < _
    rw [hf]; exact asking_rank h

/-! ## When the broker decides -/

theorem fromLB_before_cons {ds : Deps} {g : FedId} {x : DepInfo} {rest : Deps} (hx : x.fedID = g) :
    Deps.fromLB (Deps.before ds g ++ x :: rest) g = x :: rest := by
  unfold Deps.fromLB Deps.before
  rw [List.dropWhile_append]
  have : List.dropWhile (fun d : DepInfo => decide (d.fedID < g)) (List.takeWhile (fun d => decide (d.fedID < g)) ds) = [] := by
    induction ds with
    | nil => rfl
    | cons d ds ih =>
      rw [List.takeWhile_cons]
      split
      · rename_i h; rw [List.dropWhile_cons, if_pos h]; exact ih
      · rfl
  rw [this]
  simp [hx]

theorem isDependency_removeDependent {ds : Deps} {g : FedId} (h : ds.isDependency g = true) :
    ∃ d, (ds.removeDependent g).find g = some d ∧ d.dependency = true := by
  unfold Deps.isDependency at h
  unfold Deps.removeDependent
  split at h
  · cases h
  · rename_i d rest he
    split at h
    · rename_i hg
      rw [if_pos hg, if_neg (by simp [h])]
      refine ⟨{ d with dependent := false }, ?_, h⟩
      unfold Deps.find
      rw [fromLB_before_cons (x := { d with dependent := false }) hg]
      simp [hg]
    · cases h

theorem isDependency_find {ds : Deps} {g : FedId} (h : ds.isDependency g = true) :
    ∃ d, ds.find g = some d ∧ d.dependency = true := by
  unfold Deps.isDependency at h
  unfold Deps.find
  split at h
  · cases h
  · rename_i d rest he
    split at h
    · rename_i hg
      exact ⟨d, by simp [hg], h⟩
    · cases h

theorem updateTime_processed {ds : Deps} {m : Msg} (hp : Prompting m) {d : DepInfo} (hf : ds.find m.source = some d)
    (hd : d.dependency = true) : (ds.updateTime m).2 ≠ .notProcessed := by
  unfold Deps.updateTime
  simp only [hf, hd, Bool.not_true, Bool.false_eq_true, if_false]
  unfold DepInfo.process
  rcases hp with h | h | h | h | h <;> rw [h] <;> dsimp only <;> (repeat' split) <;> (intro e; cases e)

theorem handle_update {g : Glob} {m : Msg} (he : g.base.entered = true) (hp : Prompting m)
    (hd : g.base.deps.isDependency m.source = true) : handle g m = (received g m).updateTimeFactors := by
  have h : (g.processTimeMessage m).2 ≠ .notProcessed := by
    show (g.base.processBase m).2 ≠ .notProcessed
    rw [(processBase_deps _ _).2]
    unfold preTable
    split
    all_goals first
      | (obtain ⟨d, h1, h2⟩ := isDependency_removeDependent hd
         exact updateTime_processed hp h1 h2)
      | (obtain ⟨d, h1, h2⟩ := isDependency_find hd
         exact updateTime_processed hp h1 h2)
  unfold handle received
  rcases hp with k | k | k | k | k <;> rw [k] <;> dsimp only <;> simp only [he, if_true, h, if_false, ne_eq, not_false_eq_true]

/-! ## Whoever is waited for has been asked -/

theorem process_next (m : Msg) (d : DepInfo) (h1 : m.action = .timeRequest ∨ m.action = .timeGrant → d.next ≤ m.actionTime)
    (h2 : m.action = .execGrant → d.next ≤ 0) : d.next ≤ (d.process m).1.next ∨ (d.process m).1.next = maxVal := by
  unfold DepInfo.process
  split
  case h_2 e => split <;> (left; first | exact h2 e | exact Int.le_refl _)
  case h_3 e => exact Or.inl (h1 (Or.inl e))
  case h_4 e => exact Or.inl (h1 (Or.inr e))
  all_goals first | exact Or.inl (Int.le_refl _) | exact Or.inr rfl

theorem From.next {m : Msg} {d x : DepInfo} (h : From m d x)
    (h1 : d.fedID = m.source → (m.action = .timeRequest ∨ m.action = .timeGrant → d.next ≤ m.actionTime) ∧ (m.action = .execGrant → d.next ≤ 0)) :
    d.next ≤ x.next ∨ x.next = maxVal := by
  rcases h with rfl | ⟨hs, b, rfl | rfl⟩
  · exact Or.inl (Int.le_refl _)
  · exact Or.inl (Int.le_refl _)
  · exact process_next m { d with dependent := b } (h1 hs).1 (h1 hs).2

/-- the current round, and that it reached everybody who matters -/
structure Covered (g0 : Glob) (es pre : List Msg) (p : Msg) (mid : List Msg) : Prop where
  split : es = pre ++ p :: mid
  opens : Opens (run g0 pre) p (run g0 es).base.seq
  still : ∀ a x b, mid = a ++ x :: b → Nothing (sent (run g0 (pre ++ p :: a)) x)
  all : ∀ d ∈ (run g0 es).base.deps, d.next ≤ trigTime (run g0 es).nextEvent → d.next < cTerm →
    Asked (run g0 es).base.seq d.fedID (sent (run g0 pre) p)

theorem covered (g0 : Glob) (h0 : Started g0) (es : List Msg) (ht : ∀ m ∈ es, Timing m)
    (hb : NoStepBack g0 es) (hs : (run g0 es).state = .timeReq) : ∃ pre p mid, Covered g0 es pre p mid := by
  induction es using snoc_induction with
  | h0 => rw [show run g0 [] = g0 from rfl, h0.2.2] at hs; cases hs
  | h1 es m ih =>
    have ht' : ∀ x ∈ es, Timing x := fun x hx => ht x (by simp [hx])
    have htm : Timing m := ht m (by simp)
    obtain ⟨l1, l2, l3⟩ := run_live g0 es h0.1 h0.2.1 ht'
    have hf := received_frame (run g0 es) m htm
    rw [run_snoc] at hs
    cases step_spec (run g0 es) m l1 l2 htm with
    | quiet ps hp hsent hb' hn hst =>
      have hst' : (run g0 es).state = .timeReq ∧ (handle (run g0 es) m).nextEvent = (run g0 es).nextEvent := by
        rcases hst with k | k
        · rw [k] at hs; cases hs
        · exact ⟨by rw [← k.1]; exact hs, k.2⟩
      obtain ⟨pre, p, mid, hc⟩ := ih ht' (fun pre x post e => hb pre x (post ++ [m]) (by rw [e]; simp)) hst'.1
      have hseq : (run g0 (es ++ [m])).base.seq = (run g0 es).base.seq := by rw [run_snoc, hb']; exact hf.1
      refine ⟨pre, p, mid ++ [m], ?_, ?_, ?_, ?_⟩
      · rw [hc.split]; simp
      · rw [hseq]; exact hc.opens
      · intro a x b e
        rcases split_snoc e with ⟨rfl, rfl, rfl⟩ | ⟨b', rfl, e'⟩
        · rw [← hc.split, hsent]; exact nothing_complaints hp
        · exact hc.still a x b' e'
      · intro x hx hn1 hn2
        rw [hseq]
        rw [run_snoc, hb'] at hx
        rw [run_snoc, hst'.2] at hn1
        obtain ⟨d, hd, hfr⟩ := received_deps _ _ htm hx
        have := hfr.next (hb es m [] (by simp) d hd)
        rw [hfr.facts.1]
        have hmx : maxVal ≥ cTerm := by decide
        refine hc.all d hd ?_ ?_ <;> rcases this with k | k <;> omega
    | ask ps hp ts e h1 hh hsent hm =>
      refine ⟨es, m, [], by simp, ?_, ?_, ?_⟩
      · rw [run_snoc]; exact opens_ask hp hf.1 hh hsent
      · intro a x b e'; cases a <;> cases e'
      · intro d hd hn1 hn2
        rw [run_snoc] at hd hn1 ⊢
        rw [hsent, Asked.append]
        right
        rw [← hf.1]
        have ap := asked_poll { received (run g0 es) m with state := .timeReq, minTime := ts, nextEvent := e } (trigTime e) (handle (run g0 es) m).base.seq d.fedID
        refine ap.2 ⟨by rw [hh], d, by rw [← hh]; exact hd, rfl, ?_, hn2⟩
        rw [hh, (poll_frame _ _).2.2.2.2.2.1] at hn1
        exact hn1
    | tell ps hp ts e h1 hh hsent hv hq' hn hm =>
      rw [hh] at hs; cases hs

end Glob
end Verif
