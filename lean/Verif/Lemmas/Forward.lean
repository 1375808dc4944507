import Verif.Model.Forward
import Verif.Lemmas.Net
/-! What a core or broker forwards on behalf of the nodes it depends on. -/
namespace Verif
open Causal

namespace Deps

theorem foldImpl_error (ig : FedId) (c : Int) (l : Deps) : ∀ m : TimeData,
    (∀ d ∈ l, d.fedID ≠ ig → d.state ≠ .error) → (l.foldl (minTimeImpl ig c) m).state = .error →
    m.state = .error ∧ ∀ d ∈ l, d.fedID ≠ ig → executing d = true ∧ m.next ≤ d.next := by
  induction l with
  | nil => intro m _ h; exact ⟨h, fun d hd => nomatch hd⟩
  | cons d l ih =>
    intro m hne h
    rw [List.foldl_cons] at h
    obtain ⟨h1, h2⟩ := ih _ (fun x hx => hne x (by simp [hx])) h
    by_cases hi : d.fedID = ig
    · have hs : (minTimeImpl ig c m d).state = m.state ∧ (minTimeImpl ig c m d).next = m.next := by
        unfold minTimeImpl
        simp only [hi, if_true]
        repeat' split
        all_goals exact ⟨rfl, rfl⟩
      rw [hs.1] at h1
      rw [hs.2] at h2
      refine ⟨h1, fun x hx hxi => ?_⟩
      rcases List.mem_cons.mp hx with rfl | hx
      · exact absurd hi hxi
      · exact h2 x hx hxi
    · have hd := hne d (by simp) hi
      by_cases hx : executing d = true
      · have h0 : ¬ d.state.rank < TimeState.granted.rank := by simp [executing] at hx; omega
        obtain ⟨a, b, _⟩ := minTimeImpl_exec ig c m d hx hi
        have hst : (minTimeImpl ig c m d).state = .error → m.state = .error ∧ m.next ≤ d.next := by
          unfold minTimeImpl
          rw [if_neg h0, if_neg hi]
          intro e
          have e' : (minTimeNext { m with minDe := minTimeMinDe m.minDe d c } d c).state = .error := by
            unfold minTimeTe at e
            split at e
            · exact e
            · split at e <;> exact e
          unfold minTimeNext at e'
          split at e'
          · exact absurd e' hd
          · split at e'
            · dsimp only at e'
              rename_i hn
              refine ⟨?_, by dsimp only at hn; omega⟩
              repeat' split at e'
              all_goals first | exact absurd e' hd | exact e'
            · rename_i hn _
              exact ⟨e', by dsimp only at hn; omega⟩
        obtain ⟨k1, k2⟩ := hst h1
        refine ⟨k1, fun x hxm hxi => ?_⟩
        rcases List.mem_cons.mp hxm with rfl | hxm
        · exact ⟨hx, k2⟩
        · refine ⟨(h2 x hxm hxi).1, ?_⟩
          have := (h2 x hxm hxi).2
          rw [b] at this
          omega
      · exfalso
        have h0 : d.state.rank < TimeState.granted.rank := by simp [executing] at hx; omega
        unfold minTimeImpl at h1
        rw [if_pos h0, if_neg hi] at h1
        unfold minTimeExec at h1
        dsimp only at h1
        revert h1
        by_cases hr : d.state.rank < m.state.rank
        · rw [if_pos hr]; exact fun e => hd e
        · rw [if_neg hr]
          intro e
          have : m.state = .error := by
            repeat' split at e
            all_goals exact e
          rw [this] at hr
          have : TimeState.error.rank = 10 := rfl
          have : TimeState.granted.rank = 5 := rfl
          omega

/-- the aggregate, bounded by one of its parts -/
theorem finish_bound {F : Prop} {m : TimeData} {r : Bool} {X : Time} (hX : 0 ≤ X) (hr : r = true ∨ F)
    (h1 : m.next ≤ X) (h2 : F → m.Te ≤ X) :
    (minTimeInit (minTimeFinish m r)).next ≤ X ∧ (F → (minTimeInit (minTimeFinish m r)).Te ≤ X) := by
  obtain ⟨a, _, _, d⟩ := minTimeFinish_fields m r
  unfold minTimeInit
  split
  · exact ⟨by show (-1 : Int) ≤ X; omega, fun _ => by show (-1 : Int) ≤ X; omega⟩
  · refine ⟨?_, fun hf => by rw [a]; exact h2 hf⟩
    rw [d]
    split
    · exact h1
    · rename_i hn
      rcases hr with hr | hr
      · exact absurd hr hn
      · have := h2 hr; omega

theorem parts_bound {F : Prop} {l : Deps} {d : DepInfo} (ig : FedId) (c : Int) {X : Time} (hX : 0 ≤ X) (hd : d ∈ l)
    (hi : d.fedID ≠ ig) (h : executing d = true → d.next ≤ X ∧ (F → d.Te ≤ X)) :
    (l.foldl (minTimeImpl ig c) (TimeData.ofStart maxVal .error)).next ≤ X ∧
    (F → (l.foldl (minTimeImpl ig c) (TimeData.ofStart maxVal .error)).Te ≤ X) := by
  refine ⟨(foldImpl_bound' ig c X (max 0 d.Te) hX (by omega) l _ (.inr ⟨d, hd, hi, fun e => ⟨(h e).1, by omega⟩⟩)).1, fun hf => ?_⟩
  exact (foldImpl_bound' ig c X X hX hX l _ (.inr ⟨d, hd, hi, fun e => ⟨(h e).1, (h e).2 hf⟩⟩)).2

/-- the federate named by the downstream aggregate is not a child -/
theorem minTimeImpl_minFed (ig : FedId) (c : Int) (m : TimeData) (d : DepInfo) :
    (minTimeImpl ig c m d).minFed = m.minFed ∨ (minTimeImpl ig c m d).minFed = d.fedID ∨ (minTimeImpl ig c m d).minFed = invalidFed := by
  unfold minTimeImpl
  split
  · split
    · exact .inl rfl
    · unfold minTimeExec
      dsimp only
      repeat' split
      all_goals first | exact .inl rfl | exact .inr (.inl rfl)
  · split
    · split <;> exact .inl rfl
    · have : (minTimeNext { m with minDe := minTimeMinDe m.minDe d c } d c).minFed = m.minFed := by
        unfold minTimeNext
        repeat' split
        all_goals rfl
      unfold minTimeTe
      split
      · exact .inr (.inl rfl)
      · split
        · exact .inr (.inr rfl)
        · exact .inl this

theorem foldImpl_minFed (ig : FedId) (c : Int) (l : Deps) : ∀ m : TimeData,
    (l.foldl (minTimeImpl ig c) m).minFed = m.minFed ∨ (l.foldl (minTimeImpl ig c) m).minFed = invalidFed ∨
    ∃ d ∈ l, (l.foldl (minTimeImpl ig c) m).minFed = d.fedID := by
  induction l with
  | nil => intro m; exact .inl rfl
  | cons d l ih =>
    intro m
    rw [List.foldl_cons]
    rcases ih (minTimeImpl ig c m d) with h | h | ⟨x, hx, h⟩
    · rw [h]
      rcases minTimeImpl_minFed ig c m d with k | k | k
      · exact .inl k
      · exact .inr (.inr ⟨d, by simp, k⟩)
      · exact .inr (.inl k)
    · exact .inr (.inl h)
    · exact .inr (.inr ⟨x, by simp [hx], h⟩)

theorem finish_minFed (m : TimeData) (r : Bool) : (minTimeInit (minTimeFinish m r)).minFed = m.minFed := by
  unfold minTimeInit minTimeFinish
  dsimp only
  repeat' split
  all_goals rfl

theorem execEntryMinFed_src (ds : Deps) (self ig : FedId) (t : Conn) :
    (execEntryMinFed ds self t ig).fedID = invalidFed ∨
    ∃ d ∈ ds, d.fedID = (execEntryMinFed ds self t ig).fedID ∧ d.connection ≠ t := by
  unfold execEntryMinFed
  dsimp only
  generalize hM : ({ toTimeData := TimeData.ofStart maxVal .initialized 50 } : DepInfo) = M
  have hMf : M.fedID = invalidFed := by rw [← hM]
  suffices h : ∀ (l : Deps) (a : DepInfo × Bool), (∀ x ∈ l, x ∈ ds) →
      (a.1.fedID = invalidFed ∨ ∃ d ∈ ds, d.fedID = a.1.fedID ∧ d.connection ≠ t) →
      ((l.foldl (fun (acc : DepInfo × Bool) dep =>
        if acc.2 then acc
        else if !dep.dependency then acc
        else if dep.fedID = ig then acc
        else if dep.connection = .self ∨ dep.connection = t then acc
        else if FedId.isValid self ∧ dep.minFedActual = self then acc
        else if dep.state.rank > TimeState.execReqIter.rank then acc
        else if dep.restrictionLevel > acc.1.restrictionLevel then acc
        else if !FedId.isValid acc.1.fedID || decide (dep.fedID < acc.1.fedID) then
          if dep.state = .initialized then (M, true) else (dep, false)
        else acc) a).1.fedID = invalidFed ∨ ∃ d ∈ ds, d.fedID = (l.foldl (fun (acc : DepInfo × Bool) dep =>
        if acc.2 then acc
        else if !dep.dependency then acc
        else if dep.fedID = ig then acc
        else if dep.connection = .self ∨ dep.connection = t then acc
        else if FedId.isValid self ∧ dep.minFedActual = self then acc
        else if dep.state.rank > TimeState.execReqIter.rank then acc
        else if dep.restrictionLevel > acc.1.restrictionLevel then acc
        else if !FedId.isValid acc.1.fedID || decide (dep.fedID < acc.1.fedID) then
          if dep.state = .initialized then (M, true) else (dep, false)
        else acc) a).1.fedID ∧ d.connection ≠ t) from h ds (M, false) (fun _ h => h) (.inl hMf)
  intro l
  induction l with
  | nil => intro a _ h; exact h
  | cons d l ih =>
    intro a hl ha
    rw [List.foldl_cons]
    apply ih _ (fun x hx => hl x (by simp [hx]))
    split
    · exact ha
    split
    · exact ha
    split
    · exact ha
    split
    · exact ha
    rename_i hc
    split
    · exact ha
    split
    · exact ha
    split
    · exact ha
    split
    · split
      · exact .inl hMf
      · exact .inr ⟨d, hl d (by simp), rfl, fun e => hc (.inr e)⟩
    · exact ha

theorem downstream_minFed (ds : Deps) (r : Bool) (self ig : FedId) (c : Int) :
    (minTimeDownstream ds r self ig c).minFed = invalidFed ∨
    ∃ d ∈ ds, d.fedID = (minTimeDownstream ds r self ig c).minFed ∧ d.connection ≠ .child := by
  obtain ⟨f, hf⟩ := minTimeDownstream_eq ds r self ig c
  have : ds.foldl (fun m dep =>
      if !dep.dependency then m
      else if dep.connection ≠ .parent then m
      else if FedId.isValid self ∧ dep.minFedActual = self then m
      else minTimeImpl ig c m dep) (TimeData.ofStart maxVal .error) =
      (downParts ds self).foldl (minTimeImpl ig c) (TimeData.ofStart maxVal .error) := by
    unfold downParts
    rw [← foldl_skip]
    congr 1
    funext m d
    by_cases h1 : d.dependency = true <;> simp [h1]
    by_cases h4 : d.connection = .parent <;> simp [h4]
    by_cases h2 : FedId.isValid self = true <;> simp [h2]
  unfold minTimeDownstream
  rw [this]
  dsimp only
  split
  · exact execEntryMinFed_src ds self ig .child
  · rw [finish_minFed]
    rcases foldImpl_minFed ig c (downParts ds self) (TimeData.ofStart maxVal .error) with h | h | ⟨d, hd, h⟩
    · exact .inl h
    · exact .inl h
    · refine .inr ⟨d, (List.mem_filter.mp hd).1, h.symm, ?_⟩
      have := (List.mem_filter.mp hd).2
      simp only [Bool.and_eq_true, beq_iff_eq] at this
      rw [this.1.2]; decide

end Deps
end Verif
