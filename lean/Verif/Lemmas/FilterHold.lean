import Verif.Lemmas.FilterHome
/-!
# Lemmas about filters: the hold on the time of a federate
-/
namespace Verif.Filt

/-- the state of the holds matches the list of ongoing processes, and the time messages `ts` are either
passed on or delayed, in order -/
structure HoldOk (b : Holds) (o : List (Int × Int)) (ts : List (Int × Int)) : Prop where
  keys : (b.blocks.map (·.1)).Nodup
  vals : ∀ p ∈ b.blocks, p.2 = 0 ∨ p.2 = 1
  iff : ∀ fid, (fid, 1) ∈ b.blocks ↔ busy o fid = true
  delayed : ∀ d ∈ b.delayed, busy o d.1 = true
  order : ∀ fid, b.timing.filter (fun d => decide (d.1 = fid)) ++ b.delayed.filter (fun d => decide (d.1 = fid)) =
    ts.filter (fun d => decide (d.1 = fid))

theorem key_unique {l : List (Int × Int)} (h : (l.map (·.1)).Nodup) {p q : Int × Int} (hp : p ∈ l)
    (hq : q ∈ l) (e : p.1 = q.1) : p = q := by
  induction l with
  | nil => cases hp
  | cons x xs ih =>
    rw [List.map_cons, List.nodup_cons] at h
    rcases List.mem_cons.mp hp with rfl | hp'
    · rcases List.mem_cons.mp hq with rfl | hq'
      · rfl
      · exact absurd (e ▸ List.mem_map_of_mem (f := (·.1)) hq') h.1
    · rcases List.mem_cons.mp hq with rfl | hq'
      · exact absurd (e ▸ List.mem_map_of_mem (f := (·.1)) hp') h.1
      · exact ih h.2 hp' hq'

theorem hasBlock_iff {y : Sys} {o ts : List (Int × Int)} (h : HoldOk y.holds o ts) (fid : Int) :
    y.hasBlock fid = busy o fid := by
  rw [Bool.eq_iff_iff, ← h.iff fid]
  unfold Sys.hasBlock
  change _ ↔ (fid, 1) ∈ y.blocks
  have hk : (y.blocks.map (·.1)).Nodup := h.keys
  have hv : ∀ p ∈ y.blocks, p.2 = 0 ∨ p.2 = 1 := h.vals
  cases hf : y.blocks.find? (fun b => b.1 = fid) with
  | none =>
    rw [List.find?_eq_none] at hf
    refine ⟨(nomatch ·), fun hm => absurd (by simp) (hf _ hm)⟩
  | some b =>
    have hb := List.find?_some hf
    have hm := List.mem_of_find?_eq_some hf
    simp only [decide_eq_true_eq] at hb ⊢
    constructor
    · intro hn
      rcases hv b hm with h0 | h1
      · exact absurd h0 hn
      · rw [← hb, ← h1]; exact hm
    · intro hm'
      have := key_unique hk hm hm' hb
      rw [this]; simp

theorem HoldOk.congr {b : Holds} {o o' ts : List (Int × Int)} (h : HoldOk b o ts)
    (he : ∀ g, busy o' g = busy o g) : HoldOk b o' ts :=
  ⟨h.keys, h.vals, fun f => by rw [he]; exact h.iff f, fun d hd => by rw [he]; exact h.delayed d hd, h.order⟩

theorem hold_add {y : Sys} {o o' ts : List (Int × Int)} (h : HoldOk y.holds o ts) {fid : Int}
    (hn : busy o fid = false) (h1 : busy o' fid = true) (h2 : ∀ g, g ≠ fid → busy o' g = busy o g) :
    HoldOk (y.addBlock fid).holds o' ts := by
  have hno : (fid, 1) ∉ y.blocks := by
    intro hm; have := (h.iff fid).mp hm; rw [hn] at this; cases this
  have hdel : ∀ d ∈ (y.addBlock fid).delayed, busy o' d.1 = true := by
    intro d hd
    by_cases hf : d.1 = fid
    · rw [hf]; exact h1
    · rw [h2 _ hf]; exact h.delayed d hd
  have hmap : (y.blocks.map (fun b => if b.1 = fid then (b.1, b.2 + 1) else b)).map (·.1) = y.blocks.map (·.1) := by
    rw [List.map_map]
    apply List.map_congr_left
    intro b _
    simp only [Function.comp]
    split <;> rfl
  by_cases ha : y.blocks.any (fun b => b.1 = fid) = true
  · have hb : (y.addBlock fid).blocks = y.blocks.map (fun b => if b.1 = fid then (b.1, b.2 + 1) else b) := by
      unfold Sys.addBlock; rw [if_pos ha]
    refine ⟨?_, ?_, ?_, hdel, h.order⟩
    · show ((y.addBlock fid).blocks.map (·.1)).Nodup
      rw [hb, hmap]; exact h.keys
    · show ∀ p ∈ (y.addBlock fid).blocks, _
      rw [hb]
      intro p hp
      obtain ⟨b, hbm, rfl⟩ := List.mem_map.mp hp
      have hv := h.vals b hbm
      split
      · rename_i hf
        rcases hv with h0 | h1
        · right; dsimp only; omega
        · exfalso; apply hno; rw [← hf, ← h1]; exact hbm
      · exact hv
    · intro g
      show (g, 1) ∈ (y.addBlock fid).blocks ↔ _
      rw [hb, List.mem_map]
      by_cases hg : g = fid
      · subst hg
        rw [h1]
        refine ⟨fun _ => rfl, fun _ => ?_⟩
        obtain ⟨b, hbm, hbe⟩ := List.any_eq_true.mp ha
        simp only [decide_eq_true_eq] at hbe
        refine ⟨b, hbm, ?_⟩
        rw [if_pos hbe]
        rcases h.vals b hbm with h0 | h1
        · rw [h0, hbe]; rfl
        · exfalso; apply hno; rw [← hbe, ← h1]; exact hbm
      · rw [h2 g hg, ← h.iff g]
        constructor
        · rintro ⟨b, hbm, hbe⟩
          split at hbe
          · rename_i hf
            have := congrArg Prod.fst hbe
            exact absurd (this.symm.trans hf) hg
          · rw [← hbe]; exact hbm
        · intro hm
          exact ⟨(g, 1), hm, if_neg hg⟩
  · have hb : (y.addBlock fid).blocks = y.blocks ++ [(fid, 1)] := by
      unfold Sys.addBlock; rw [if_neg ha]
    have hnk : fid ∉ y.blocks.map (·.1) := by
      intro hm
      obtain ⟨b, hbm, hbe⟩ := List.mem_map.mp hm
      exact ha (List.any_eq_true.mpr ⟨b, hbm, by simp [hbe]⟩)
    refine ⟨?_, ?_, ?_, hdel, h.order⟩
    · show ((y.addBlock fid).blocks.map (·.1)).Nodup
      rw [hb, List.map_append, List.nodup_append]
      refine ⟨h.keys, by simp, ?_⟩
      intro a ha' b hb'
      simp only [List.map_cons, List.map_nil, List.mem_singleton] at hb'
      subst hb'
      exact fun e => hnk (e ▸ ha')
    · show ∀ p ∈ (y.addBlock fid).blocks, _
      rw [hb]
      intro p hp
      rw [List.mem_append, List.mem_singleton] at hp
      rcases hp with hp | rfl
      · exact h.vals p hp
      · exact .inr rfl
    · intro g
      show (g, 1) ∈ (y.addBlock fid).blocks ↔ _
      rw [hb, List.mem_append, List.mem_singleton]
      by_cases hg : g = fid
      · subst hg; simp [h1]
      · rw [h2 g hg, ← h.iff g]
        refine ⟨fun h' => h'.elim id (fun e => absurd (congrArg Prod.fst e) hg), .inl⟩

theorem hold_drop {y : Sys} {o o' ts : List (Int × Int)} (h : HoldOk y.holds o ts) {fid : Int}
    (hn : busy o fid = true) (h1 : busy o' fid = false) (h2 : ∀ g, g ≠ fid → busy o' g = busy o g) :
    HoldOk (y.dropBlock fid).holds o' ts := by
  have hm1 : (fid, 1) ∈ y.blocks := (h.iff fid).mpr hn
  have hany : y.blocks.any (fun b => decide (b.1 = fid) && decide (b.2 - 1 ≤ 0)) = true :=
    List.any_eq_true.mpr ⟨_, hm1, by simp⟩
  have hd : y.dropBlock fid = { y with
      blocks := y.blocks.map (fun b => if b.1 = fid then (b.1, if b.2 - 1 ≤ 0 then 0 else b.2 - 1) else b),
      timing := y.timing ++ y.delayed.filter (fun d => decide (d.1 = fid)),
      delayed := y.delayed.filter (fun d => decide (d.1 ≠ fid)) } := by
    unfold Sys.dropBlock; rw [if_pos hany]
  rw [hd]
  have hmap : (y.blocks.map (fun b => if b.1 = fid then (b.1, if b.2 - 1 ≤ 0 then 0 else b.2 - 1) else b)).map (·.1)
      = y.blocks.map (·.1) := by
    rw [List.map_map]
    apply List.map_congr_left
    intro b _
    simp only [Function.comp]
    split <;> rfl
  have hval : ∀ b ∈ y.blocks, b.2 = 0 ∨ b.2 = 1 := h.vals
  refine ⟨?_, ?_, ?_, ?_, ?_⟩
  · exact hmap ▸ h.keys
  · intro p hp
    obtain ⟨b, hbm, rfl⟩ := List.mem_map.mp hp
    split
    · left; dsimp only; rw [if_pos]; rcases hval b hbm with h | h <;> omega
    · exact hval b hbm
  · intro g
    show (g, 1) ∈ List.map _ y.blocks ↔ _
    rw [List.mem_map]
    by_cases hg : g = fid
    · subst hg
      rw [h1]
      refine ⟨?_, (nomatch ·)⟩
      rintro ⟨b, hbm, hbe⟩
      split at hbe
      · rw [if_pos (by rcases hval b hbm with h | h <;> omega)] at hbe
        have := congrArg Prod.snd hbe
        exact absurd this (by simp)
      · rename_i hf; exact absurd (congrArg Prod.fst hbe) hf
    · rw [h2 g hg, ← h.iff g]
      constructor
      · rintro ⟨b, hbm, hbe⟩
        split at hbe
        · rename_i hf
          have := congrArg Prod.fst hbe
          exact absurd (this.symm.trans hf) hg
        · rw [← hbe]; exact hbm
      · intro hm
        exact ⟨(g, 1), hm, if_neg hg⟩
  · intro d hdm
    have hdm' : d ∈ y.delayed.filter (fun d => decide (d.1 ≠ fid)) := hdm
    rw [List.mem_filter] at hdm'
    rw [h2 _ (by simpa using hdm'.2)]
    exact h.delayed d hdm'.1
  · intro g
    have ho := h.order g
    show (y.timing ++ y.delayed.filter (fun d => decide (d.1 = fid))).filter _ ++
      (y.delayed.filter (fun d => decide (d.1 ≠ fid))).filter _ = _
    rw [← ho]
    show _ = y.timing.filter _ ++ y.delayed.filter _
    rw [List.filter_append, List.filter_filter, List.filter_filter]
    by_cases hg : g = fid
    · subst hg
      have e1 : y.delayed.filter (fun d => decide (d.1 = g) && decide (d.1 = g)) =
          y.delayed.filter (fun d => decide (d.1 = g)) := by simp
      have e2 : y.delayed.filter (fun d => decide (d.1 = g) && decide (d.1 ≠ g)) = [] := by
        rw [List.filter_eq_nil_iff]; intro d _; simp
      rw [e1, e2, List.append_nil]
    · have e1 : y.delayed.filter (fun d => decide (d.1 = g) && decide (d.1 = fid)) = [] := by
        rw [List.filter_eq_nil_iff]; intro d _
        simp only [Bool.and_eq_true, decide_eq_true_eq]
        rintro ⟨a, b⟩; exact hg (a.symm.trans b)
      have e2 : y.delayed.filter (fun d => decide (d.1 = g) && decide (d.1 ≠ fid)) =
          y.delayed.filter (fun d => decide (d.1 = g)) := by
        apply List.filter_congr
        intro d _
        by_cases hd' : d.1 = g
        · simp [hd', hg]
        · simp [hd']
      rw [e1, e2, List.append_nil]

theorem busy_append (o : List (Int × Int)) (fid pid g : Int) :
    busy (o ++ [(fid, pid)]) g = (busy o g || decide (fid = g)) := by
  unfold busy; rw [List.any_append]; simp

/-- a marker is set -/
theorem mark_holds {y : Sys} {s : FF} {ts : List (Int × Int)} (h : HoldOk y.holds s.ongoing ts) (fid pid t : Int)
    (hn : (fid, pid) ∉ s.ongoing) :
    HoldOk (y.effects (s.mark fid pid t).2).holds (s.mark fid pid t).1.ongoing ts := by
  have ho : (s.mark fid pid t).1.ongoing = s.ongoing ++ [(fid, pid)] := by
    unfold FF.mark FF.addReturn; dsimp only; rw [if_neg hn]
  rw [ho]
  unfold FF.mark
  dsimp only
  split
  · rename_i hb
    refine h.congr ?_
    intro g
    rw [busy_append]
    by_cases hg : fid = g
    · rw [← hg, hb]; rfl
    · simp [hg]
  · rename_i hb
    have hb' : busy s.ongoing fid = false := by simpa using hb
    refine hold_add (y := y) h hb' ?_ ?_
    · rw [busy_append]; simp
    · intro g hg
      rw [busy_append]
      have : ¬ fid = g := fun e => hg e.symm
      simp [this]

theorem clearReturn_same (s : FF) (id : Int) :
    (s.clearReturn id).ongoing = s.ongoing ∧ (s.clearReturn id).ongoingDest = s.ongoingDest ∧
    (s.clearReturn id).counter = s.counter ∧ (s.clearReturn id).fed = s.fed ∧
    (s.clearReturn id).epts = s.epts ∧ (s.clearReturn id).ops = s.ops := by
  unfold FF.clearReturn
  split
  · exact ⟨rfl, rfl, rfl, rfl, rfl, rfl⟩
  · split <;> exact ⟨rfl, rfl, rfl, rfl, rfl, rfl⟩

theorem busy_remove_other {o : List (Int × Int)} {fid pid g : Int} (hg : g ≠ fid) :
    busy (o.filter (fun p => p ≠ (fid, pid))) g = busy o g := by
  unfold busy
  rw [Bool.eq_iff_iff, List.any_eq_true, List.any_eq_true]
  constructor
  · rintro ⟨p, hp, he⟩; exact ⟨p, (List.mem_filter.mp hp).1, he⟩
  · rintro ⟨p, hp, he⟩
    refine ⟨p, List.mem_filter.mpr ⟨hp, ?_⟩, he⟩
    simp only [decide_eq_true_eq] at he ⊢
    intro e
    rw [e] at he
    exact hg he.symm

/-- a marker is removed -/
theorem unmark_holds {y : Sys} {s : FF} {ts : List (Int × Int)} (h : HoldOk y.holds s.ongoing ts) (fid pid : Int)
    (hm : (fid, pid) ∈ s.ongoing) :
    HoldOk (y.effects (s.unmark fid pid).2).holds (s.unmark fid pid).1.ongoing ts := by
  have ho : (s.unmark fid pid).1.ongoing = s.ongoing.filter (fun p => p ≠ (fid, pid)) := by
    unfold FF.unmark; dsimp only; exact (clearReturn_same _ _).1
  rw [ho]
  have hb : busy s.ongoing fid = true := List.any_eq_true.mpr ⟨_, hm, by simp⟩
  unfold FF.unmark
  dsimp only
  split
  · rename_i hb'
    refine h.congr ?_
    intro g
    by_cases hg : g = fid
    · subst hg; rw [hb', hb]
    · exact busy_remove_other hg
  · rename_i hb'
    exact hold_drop (y := y) h hb (by simpa using hb') (fun g hg => busy_remove_other hg)

end Verif.Filt
