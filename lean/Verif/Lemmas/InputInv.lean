import Verif.Lemmas.Input
/-! # Invariants of an input under every call -/
namespace Verif.Input

theorem u64_sub_sub (a b c : UInt64) : a - b - c = a - (b + c) := by
  rw [UInt64.sub_eq_add_neg, UInt64.sub_eq_add_neg, UInt64.sub_eq_add_neg, UInt64.neg_add, UInt64.sub_eq_add_neg,
    UInt64.add_assoc]

theorem mem_takeWhile {p : DRec → Bool} {l : List DRec} {x : DRec} (h : x ∈ l.takeWhile p) : p x = true := by
  induction l with
  | nil => cases h
  | cons a as ih =>
    rw [List.takeWhile_cons] at h
    split at h
    · rcases List.mem_cons.1 h with rfl | h
      · assumption
      · exact ih h
    · cases h

/-- Everything waiting, over all sources. -/
def waiting (i : Input) : List DRec := i.srcs.flatMap (·.queue)

/-- Invariant of every input reachable from an empty one. -/
structure Inv (i : Input) : Prop where
  nodup : (i.srcs.map (·.handle)).Nodup
  sorted : ∀ s ∈ i.srcs, Sorted s.queue
  bytes : i.queued = sizeOf i.waiting

/-- The slot of a source. -/
def slot (i : Input) (h : GHandle) : Option Src := i.srcs.find? (fun s => decide (s.handle = h))

theorem slot_some {i : Input} {h : GHandle} {s : Src} (hs : i.slot h = some s) : s ∈ i.srcs ∧ s.handle = h := by
  unfold slot at hs
  exact ⟨List.mem_of_find?_eq_some hs, by simpa using List.find?_some hs⟩

theorem find_of_mem {l : List Src} (hn : (l.map (·.handle)).Nodup) {s : Src} (hs : s ∈ l) :
    l.find? (fun x => decide (x.handle = s.handle)) = some s := by
  induction l with
  | nil => cases hs
  | cons a as ih =>
    rw [List.map_cons, List.nodup_cons] at hn
    rcases List.mem_cons.1 hs with rfl | h
    · simp
    · rw [List.find?_cons]
      have : a.handle ≠ s.handle := fun he => hn.1 (List.mem_map.2 ⟨s, h, he.symm⟩)
      simp [this, ih hn.2 h]

/-- What an accepted value does to the slots. -/
theorem addToSrcs_some {i : Input} {h : GHandle} {r : DRec} {l l' : List Src}
    (hsort : ∀ s ∈ l, Sorted s.queue) (he : i.addToSrcs h r l = some l') :
    ∃ pre s post, l = pre ++ s :: post ∧ s.handle = h ∧ (∀ x ∈ pre, x.handle ≠ h) ∧ r.time ≤ s.deact ∧
      (i.enqueue s r).isSome ∧
      l' = pre ++ { s with queue := insertRec r s.queue } :: post := by
  induction l generalizing l' with
  | nil => cases he
  | cons a as ih =>
    unfold addToSrcs at he
    split at he
    · rename_i hh
      split at he
      · cases he
      · rename_i hd
        split at he
        · rename_i q hq
          cases he
          refine ⟨[], a, as, rfl, hh, by simp, by omega, by simp [hq], ?_⟩
          rw [enqueue_eq (hsort a (by simp)) hq]; rfl
        · cases he
    · rename_i hh
      cases hr : i.addToSrcs h r as with
      | none => rw [hr] at he; cases he
      | some l2 =>
        rw [hr] at he; cases he
        obtain ⟨pre, s, post, e1, e2, e3, e4, e5, e6⟩ := ih (fun s hs => hsort s (by simp [hs])) hr
        refine ⟨a :: pre, s, post, by rw [e1]; rfl, e2, ?_, e4, e5, by rw [e6]; rfl⟩
        intro x hx
        rcases List.mem_cons.1 hx with rfl | hx
        · exact hh
        · exact e3 x hx

theorem find_pre {pre : List Src} {l : List Src} {h : GHandle} (hp : ∀ x ∈ pre, x.handle ≠ h) :
    (pre ++ l).find? (fun s => decide (s.handle = h)) = l.find? (fun s => decide (s.handle = h)) := by
  rw [List.find?_append]
  have : pre.find? (fun s => decide (s.handle = h)) = none := by
    rw [List.find?_eq_none]; intro x hx; simpa using hp x hx
  rw [this]; rfl

/-- Effect of `addData`. -/
theorem addData_false {i : Input} {h : GHandle} {t : Time} {it : Nat} {d : Option Bytes}
    (hb : (i.addData h t it d).2 = false) : (i.addData h t it d).1 = i := by
  unfold addData at *
  split at hb
  · rfl
  · split at hb
    · simp_all
    · cases hb

theorem addData_true {i : Input} (hi : Inv i) {h : GHandle} {t : Time} {it : Nat} {d : Option Bytes}
    (hb : (i.addData h t it d).2 = true) :
    ∃ b s, d = some b ∧ i.slot h = some s ∧ t ≤ s.deact ∧ (i.enqueue s ⟨t, it, b⟩).isSome ∧
      (i.addData h t it d).1.slot h = some { s with queue := insertRec ⟨t, it, b⟩ s.queue } ∧
      (∀ h', h' ≠ h → (i.addData h t it d).1.slot h' = i.slot h') ∧
      (i.addData h t it d).1.waiting.Perm (⟨t, it, b⟩ :: i.waiting) ∧
      (i.addData h t it d).1.queued = i.queued + UInt64.ofNat b.length ∧
      (i.addData h t it d).1.srcs.map (·.handle) = i.srcs.map (·.handle) ∧
      (∀ s ∈ (i.addData h t it d).1.srcs, Sorted s.queue) ∧
      ∃ ss q, (i.addData h t it d).1 = { i with srcs := ss, queued := q } := by
  cases d with
  | none => simp [addData] at hb
  | some b =>
    cases hr : i.addToSrcs h ⟨t, it, b⟩ i.srcs with
    | none => simp [addData, hr] at hb
    | some ss =>
      obtain ⟨pre, s, post, e1, e2, e3, e4, e5, e6⟩ := addToSrcs_some hi.sorted hr
      have hres : i.addData h t it (some b) = ({ i with srcs := ss, queued := i.queued + UInt64.ofNat b.length }, true) := by
        simp [addData, hr]
      rw [hres]
      dsimp only
      refine ⟨b, s, rfl, ?_, e4, e5, ?_, ?_, ?_, rfl, ?_, ?_, _, _, rfl⟩
      · unfold slot; rw [e1, find_pre e3]; simp [e2]
      · unfold slot; dsimp only; rw [e6, find_pre e3]; simp [e2]
      · intro h' hne
        unfold slot; dsimp only; rw [e6, e1, List.find?_append, List.find?_append]
        congr 1
        have : ¬ s.handle = h' := by rw [e2]; exact fun x => hne x.symm
        simp [this]
      · unfold waiting
        dsimp only
        rw [e6, e1]
        simp only [List.flatMap_append, List.flatMap_cons]
        refine List.Perm.trans ?_ (List.perm_middle (a := (⟨t, it, b⟩ : DRec)))
        refine List.Perm.append_left _ ?_
        exact (List.Perm.append_right _ (insertRec_perm _ _))
      · rw [e6, e1]; simp
      · intro x hx
        rw [e6] at hx
        rcases List.mem_append.1 hx with hx | hx
        · exact hi.sorted x (by rw [e1]; simp [hx])
        · rcases List.mem_cons.1 hx with rfl | hx
          · exact insertRec_sorted (hi.sorted s (by rw [e1]; simp))
          · exact hi.sorted x (by rw [e1]; simp [hx])

/-- The sweep is a map, and the byte count drops by what was removed. -/
theorem sweep_eq (f : Src → Src × List DRec × Bool) (l : List Src) (q : UInt64) :
    sweep f l q = (l.map (fun s => (f s).1), q - sizeOf (l.flatMap (fun s => (f s).2.1)), l.any (fun s => (f s).2.2)) := by
  induction l generalizing q with
  | nil => simp [sweep, sizeOf_nil]
  | cons s ss ih =>
    unfold sweep
    simp only [ih, List.map_cons, List.flatMap_cons, sizeOf_append, List.any_cons]
    congr 2
    rw [u64_sub_sub]

/-- One move over all slots. -/
def moved (i : Input) (f : Src → Src × List DRec × Bool) : Input :=
  { i with srcs := i.srcs.map (fun s => (f s).1), queued := i.queued - sizeOf (i.srcs.flatMap (fun s => (f s).2.1)) }

theorem updateTimeUpTo_eq (i : Input) (T : Time) : i.updateTimeUpTo T =
    (i.moved (srcUpTo i.onlyChange T), i.srcs.any (fun s => (srcUpTo i.onlyChange T s).2.2)) := by
  unfold updateTimeUpTo moved; rw [sweep_eq]
theorem updateTimeInclusive_eq (i : Input) (T : Time) : i.updateTimeInclusive T =
    (i.moved (srcInclusive i.onlyChange T), i.srcs.any (fun s => (srcInclusive i.onlyChange T s).2.2)) := by
  unfold updateTimeInclusive moved; rw [sweep_eq]
theorem updateTimeNextIteration_eq (i : Input) (T : Time) : i.updateTimeNextIteration T =
    (i.moved (srcNextIter i.onlyChange T), i.srcs.any (fun s => (srcNextIter i.onlyChange T s).2.2)) := by
  unfold updateTimeNextIteration moved; rw [sweep_eq]

theorem flatMap_consumes {l : List Src} {f : Src → Src × List DRec × Bool} {oc : Bool} (hf : ∀ s ∈ l, Consumes oc s (f s)) :
    (l.flatMap (·.queue)).Perm (l.flatMap (fun s => (f s).2.1) ++ (l.map (fun s => (f s).1)).flatMap (·.queue)) := by
  induction l with
  | nil => exact List.Perm.refl _
  | cons s ss ih =>
    have := ih (fun x hx => hf x (by simp [hx]))
    simp only [List.flatMap_cons, List.map_cons]
    rw [(hf s (by simp)).split]
    rw [List.append_assoc, List.append_assoc]
    refine List.Perm.append_left _ ?_
    refine (List.Perm.append_left _ this).trans ?_
    rw [← List.append_assoc, ← List.append_assoc]
    exact List.Perm.append_right _ List.perm_append_comm

theorem find_map {l : List Src} {g : Src → Src} (hg : ∀ s ∈ l, (g s).handle = s.handle) (h : GHandle) :
    (l.map g).find? (fun s => decide (s.handle = h)) = (l.find? (fun s => decide (s.handle = h))).map g := by
  induction l with
  | nil => rfl
  | cons a as ih =>
    have ha := hg a (by simp)
    rw [List.map_cons, List.find?_cons, List.find?_cons, ha]
    by_cases h1 : a.handle = h
    · simp [h1]
    · simp only [h1, decide_false]
      exact ih (fun s hs => hg s (by simp [hs]))

theorem moved_slot {i : Input} {f : Src → Src × List DRec × Bool} {oc : Bool} (hf : ∀ s ∈ i.srcs, Consumes oc s (f s)) (h : GHandle) :
    (i.moved f).slot h = (i.slot h).map (fun s => (f s).1) := by
  unfold slot moved
  exact find_map (g := fun s => (f s).1) (fun s hs => (hf s hs).handle) h

theorem moved_inv {i : Input} (hi : Inv i) {f : Src → Src × List DRec × Bool} {oc : Bool} (hf : ∀ s ∈ i.srcs, Consumes oc s (f s)) :
    Inv (i.moved f) := by
  have hp := flatMap_consumes hf
  refine ⟨?_, ?_, ?_⟩
  · have : ((i.moved f).srcs.map (·.handle)) = i.srcs.map (·.handle) := by
      unfold moved; rw [List.map_map]
      exact List.map_congr_left (fun s hs => (hf s hs).handle)
    rw [this]; exact hi.nodup
  · intro s hs
    obtain ⟨s0, h0, rfl⟩ := List.mem_map.1 hs
    have := hi.sorted s0 h0
    rw [(hf s0 h0).split] at this
    exact (List.pairwise_append.1 this).2.1
  · show i.queued - _ = sizeOf ((i.srcs.map (fun s => (f s).1)).flatMap (·.queue))
    rw [hi.bytes]
    unfold waiting
    rw [sizeOf_perm hp, sizeOf_append, UInt64.add_comm, UInt64.add_sub_cancel]

theorem consumes_upTo (oc : Bool) (T : Time) (s : Src) : Consumes oc s (srcUpTo oc T s) := by
  rw [srcUpTo_eq]; exact srcMove_consumes _ _ _
theorem consumes_inclusive (oc : Bool) (T : Time) (s : Src) : Consumes oc s (srcInclusive oc T s) := by
  rw [srcInclusive_eq]; exact srcMove_consumes _ _ _

/-! ## Adding and removing sources -/

theorem reconnect_some {h : GHandle} {u : String} {l l' : List Src} {b : Bool} (he : reconnect h u l = some (l', b)) :
    ∃ pre s s' post, l = pre ++ s :: post ∧ s.handle = h ∧ (∀ x ∈ pre, x.handle ≠ h) ∧ l' = pre ++ s' :: post ∧
      s'.handle = h ∧ s'.queue = s.queue ∧ s'.cur = s.cur ∧ s'.curTime = s.curTime ∧
      s'.deact = maxVal ∨ (b = false ∧ l' = l ∧ ∃ s ∈ l, s.handle = h) := by
  induction l generalizing l' with
  | nil => cases he
  | cons a as ih =>
    unfold reconnect at he
    split at he
    · rename_i hh
      split at he <;> cases he
      · exact ⟨[], a, _, as, .inl ⟨rfl, hh, by simp, rfl, hh, rfl, rfl, rfl, rfl⟩⟩
      · exact ⟨[], a, a, as, .inr ⟨rfl, rfl, a, by simp, hh⟩⟩
    · rename_i hh
      cases hr : reconnect h u as with
      | none => rw [hr] at he; cases he
      | some r =>
        obtain ⟨l2, b2⟩ := r
        rw [hr] at he; cases he
        obtain ⟨pre, s, s', post, hc⟩ := ih hr
        rcases hc with ⟨e1, e2, e3, e4, e5⟩ | ⟨e1, e2, s0, e3, e4⟩
        · refine ⟨a :: pre, s, s', post, .inl ⟨by rw [e1]; rfl, e2, ?_, by rw [e4]; rfl, e5⟩⟩
          intro x hx
          rcases List.mem_cons.1 hx with rfl | hx
          · exact hh
          · exact e3 x hx
        · exact ⟨[], a, a, as, .inr ⟨e1, by dsimp only; rw [e2], s0, by simp [e3], e4⟩⟩

theorem reconnect_none {h : GHandle} {u : String} {l : List Src} (he : reconnect h u l = none) :
    ∀ s ∈ l, s.handle ≠ h := by
  induction l with
  | nil => simp
  | cons a as ih =>
    unfold reconnect at he
    split at he
    · split at he <;> cases he
    · rename_i hh
      have : reconnect h u as = none := by
        cases hr : reconnect h u as with
        | none => rfl
        | some r => rw [hr] at he; cases he
      intro s hs
      rcases List.mem_cons.1 hs with rfl | hs
      · exact hh
      · exact ih this s hs

/-- Adding a source: a known source keeps its queue and value, a new one starts empty, the others are untouched. -/
theorem addSource_facts {i : Input} (hi : Inv i) (h : GHandle) (n ty u : String) :
    Inv (i.addSource h n ty u).1 ∧
    (∀ h', h' ≠ h → (i.addSource h n ty u).1.slot h' = i.slot h') ∧
    (∀ s, i.slot h = some s → ∃ s', (i.addSource h n ty u).1.slot h = some s' ∧ s'.queue = s.queue ∧ s'.cur = s.cur ∧
      s'.curTime = s.curTime) ∧
    (i.slot h = none → ∃ s', (i.addSource h n ty u).1.slot h = some s' ∧ s'.queue = [] ∧ s'.cur = none ∧ s'.curTime = minVal) ∧
    (i.addSource h n ty u).1.onlyChange = i.onlyChange ∧ (i.addSource h n ty u).1.gap = i.gap := by
  unfold addSource
  split
  · rename_i ss b hr
    obtain ⟨pre, s, s', post, hc⟩ := reconnect_some hr
    rcases hc with ⟨e1, e2, e3, e4, e5, e6, e7, e8, _⟩ | ⟨_, e2, s0, e3, e4⟩
    · refine ⟨⟨?_, ?_, ?_⟩, ?_, ?_, ?_, rfl, rfl⟩
      · dsimp only
        have := hi.nodup
        rw [e1] at this
        rw [e4]
        simpa [e2, e5] using this
      · intro x hx
        dsimp only at hx; rw [e4] at hx
        rcases List.mem_append.1 hx with hx | hx
        · exact hi.sorted x (by rw [e1]; simp [hx])
        · rcases List.mem_cons.1 hx with rfl | hx
          · rw [e6]; exact hi.sorted s (by rw [e1]; simp)
          · exact hi.sorted x (by rw [e1]; simp [hx])
      · have := hi.bytes
        unfold waiting at *
        dsimp only at *
        rw [this, e1, e4]; simp [e6]
      · intro h' hne
        unfold slot; dsimp only
        rw [e4, e1, List.find?_append, List.find?_append]
        congr 1
        have h1 : ¬ s.handle = h' := by rw [e2]; exact fun x => hne x.symm
        have h2 : ¬ s'.handle = h' := by rw [e5]; exact fun x => hne x.symm
        simp [h1, h2]
      · intro x hx
        have : i.slot h = some s := by unfold slot; rw [e1, find_pre e3]; simp [e2]
        rw [this] at hx; cases hx
        refine ⟨s', ?_, e6, e7, e8⟩
        unfold slot; dsimp only; rw [e4, find_pre e3]; simp [e5]
      · intro hn
        have : i.slot h = some s := by unfold slot; rw [e1, find_pre e3]; simp [e2]
        rw [this] at hn; cases hn
    · have hss : ({ i with srcs := ss } : Input) = i := by rw [e2]
      dsimp only
      rw [hss]
      refine ⟨hi, fun _ _ => rfl, fun s hs => ⟨s, hs, rfl, rfl, rfl⟩, ?_, rfl, rfl⟩
      intro hn
      unfold slot at hn
      rw [List.find?_eq_none] at hn
      have := hn s0 e3
      simp [e4] at this
  · rename_i hr
    have hno := reconnect_none hr
    refine ⟨⟨?_, ?_, ?_⟩, ?_, ?_, ?_, rfl, rfl⟩
    · dsimp only
      rw [List.map_append, List.nodup_append]
      refine ⟨hi.nodup, by simp, ?_⟩
      intro a ha b hb
      obtain ⟨s, hs, rfl⟩ := List.mem_map.1 ha
      simp at hb
      rw [hb]; exact hno s hs
    · intro x hx
      rcases List.mem_append.1 hx with hx | hx
      · exact hi.sorted x hx
      · simp at hx; rw [hx]; exact List.Pairwise.nil
    · have := hi.bytes
      unfold waiting at *
      dsimp only at *
      rw [this]; simp
    · intro h' hne
      unfold slot; dsimp only
      rw [List.find?_append]
      have : ¬ h = h' := fun x => hne x.symm
      simp [this]
    · intro s hs
      exact absurd (slot_some hs).2 (hno s (slot_some hs).1)
    · intro _
      refine ⟨{ handle := h, key := n, type := ty, units := u }, ?_, rfl, rfl, rfl⟩
      unfold slot; dsimp only
      rw [find_pre hno]; simp

theorem popBack_eq (T : Time) (l : List DRec) :
    popBack T l = (l.dropWhile (fun b => decide (b.time > T)), l.takeWhile (fun b => decide (b.time > T))) := by
  induction l with
  | nil => rfl
  | cons b bs ih =>
    unfold popBack
    by_cases h : b.time > T
    · simp [h, ih]
    · simp [h]

theorem srcRemove_facts (T : Time) (s : Src) :
    s.queue = (srcRemove T s).1.queue ++ (srcRemove T s).2.reverse ∧ (srcRemove T s).1.handle = s.handle ∧
    (srcRemove T s).1.cur = s.cur ∧ (srcRemove T s).1.curTime = s.curTime ∧
    (srcRemove T s).1.key = s.key ∧ (srcRemove T s).1.deact = min T s.deact ∧
    (∀ r ∈ (srcRemove T s).2, r.time > T) := by
  unfold srcRemove
  simp only [popBack_eq]
  have h1 := List.takeWhile_append_dropWhile (p := fun b : DRec => decide (b.time > T)) (l := s.queue.reverse)
  have h2 : s.queue = (s.queue.reverse.dropWhile (fun b : DRec => decide (b.time > T))).reverse ++
      (s.queue.reverse.takeWhile (fun b : DRec => decide (b.time > T))).reverse := by
    rw [← List.reverse_append, h1, List.reverse_reverse]
  refine ⟨?_, ?_, ?_, ?_, ?_, ?_, ?_⟩
  · rw [show (deactivate T { s with queue := _ }).queue = _ from by unfold deactivate; split <;> rfl]
    exact h2
  all_goals (try (unfold deactivate; split <;> rfl))
  · unfold deactivate
    split
    · rename_i h; exact (by dsimp only at h ⊢; omega)
    · rename_i h; exact (by dsimp only at h ⊢; omega)
  · intro r hr
    have := mem_takeWhile hr
    simpa using this

theorem removeLoop_eq (p : Src → Bool) (T : Time) (l : List Src) (q : UInt64) :
    removeLoop p T l q = (l.map (fun s => if p s then (srcRemove T s).1 else s),
      q - sizeOf (l.flatMap (fun s => if p s then (srcRemove T s).2 else []))) := by
  induction l generalizing q with
  | nil => simp [removeLoop, sizeOf_nil]
  | cons s ss ih =>
    unfold removeLoop
    cases hp : p s
    · simp [hp, ih]
    · simp only [if_true, ih, List.map_cons, hp, List.flatMap_cons, sizeOf_append]
      rw [u64_sub_sub]

theorem removeLoop_inv {i : Input} (hi : Inv i) (p : Src → Bool) (T : Time) (u ty : String) :
    Inv { i with inputUnits := u, inputType := ty, srcs := (removeLoop p T i.srcs i.queued).1,
                 queued := (removeLoop p T i.srcs i.queued).2 } := by
  rw [removeLoop_eq]
  refine ⟨?_, ?_, ?_⟩
  · dsimp only
    have : (i.srcs.map (fun s => if p s then (srcRemove T s).1 else s)).map (·.handle) = i.srcs.map (·.handle) := by
      rw [List.map_map]
      refine List.map_congr_left (fun s _ => ?_)
      dsimp only [Function.comp]
      split
      · exact (srcRemove_facts T s).2.1
      · rfl
    rw [this]; exact hi.nodup
  · intro s hs
    obtain ⟨s0, h0, rfl⟩ := List.mem_map.1 hs
    have h1 := hi.sorted s0 h0
    split
    · rw [(srcRemove_facts T s0).1] at h1
      exact (List.pairwise_append.1 h1).1
    · exact h1
  · dsimp only [waiting]
    rw [hi.bytes]
    unfold waiting
    have : ∀ l : List Src, (l.flatMap (·.queue)).Perm
        (l.flatMap (fun s => if p s then (srcRemove T s).2 else []) ++
          (l.map (fun s => if p s then (srcRemove T s).1 else s)).flatMap (·.queue)) := by
      intro l
      induction l with
      | nil => exact List.Perm.refl _
      | cons s ss ih =>
        simp only [List.flatMap_cons, List.map_cons]
        cases hp : p s
        · simp only [Bool.false_eq_true, if_false, List.nil_append]
          refine (List.Perm.append_left _ ih).trans ?_
          rw [← List.append_assoc, ← List.append_assoc]
          exact List.Perm.append_right _ List.perm_append_comm
        · simp only [if_true]
          rw [(srcRemove_facts T s).1]
          have hc : ((srcRemove T s).1.queue ++ (srcRemove T s).2.reverse).Perm ((srcRemove T s).2 ++ (srcRemove T s).1.queue) :=
            List.perm_append_comm.trans (List.Perm.append_right _ (List.reverse_perm _))
          refine (List.Perm.append hc ih).trans ?_
          rw [List.append_assoc, List.append_assoc]
          refine List.Perm.append_left _ ?_
          rw [← List.append_assoc, ← List.append_assoc]
          exact List.Perm.append_right _ List.perm_append_comm
    rw [sizeOf_perm (this i.srcs), sizeOf_append, UInt64.add_comm, UInt64.add_sub_cancel]

theorem deactivate_facts (T : Time) (s : Src) : (deactivate T s).handle = s.handle ∧ (deactivate T s).queue = s.queue ∧
    (deactivate T s).cur = s.cur ∧ (deactivate T s).curTime = s.curTime := by
  unfold deactivate; split <;> exact ⟨rfl, rfl, rfl, rfl⟩

theorem setProperty_srcs (i : Input) (o : Opt) (v : Int) :
    (i.setProperty o v).srcs = i.srcs ∧ (i.setProperty o v).queued = i.queued := by
  unfold setProperty; cases o <;> exact ⟨rfl, rfl⟩

/-- Every call keeps the invariant. -/
theorem step_inv {i : Input} (hi : Inv i) (o : Op) : Inv (i.step o).1 := by
  cases o with
  | add h t it d =>
    simp only [step]
    cases hb : (i.addData h t it d).2
    · rw [addData_false hb]; exact hi
    · obtain ⟨b, s, hd, _, _, _, _, _, hp, hq, hm, hso, _⟩ := addData_true hi hb
      refine ⟨by rw [hm]; exact hi.nodup, hso, ?_⟩
      rw [hq, hi.bytes, sizeOf_perm hp, sizeOf_cons, UInt64.add_comm]
  | upTo T => simp only [step, updateTimeUpTo_eq]; exact moved_inv hi (fun s _ => consumes_upTo _ _ s)
  | inclusive T => simp only [step, updateTimeInclusive_eq]; exact moved_inv hi (fun s _ => consumes_inclusive _ _ s)
  | nextIteration T => simp only [step, updateTimeNextIteration_eq]; exact moved_inv hi (fun s _ => srcNextIter_consumes _ _ s)
  | addSource h n ty u => exact (addSource_facts hi h n ty u).1
  | remove h T => exact removeLoop_inv hi _ _ _ _
  | removeNamed n T => exact removeLoop_inv hi _ _ _ _
  | disconnect f T =>
    simp only [step, disconnectFederate]
    have hh : ∀ s, (if s.handle.fed = f then deactivate T s else s).handle = s.handle ∧
        (if s.handle.fed = f then deactivate T s else s).queue = s.queue := by
      intro s; split
      · exact ⟨(deactivate_facts T s).1, (deactivate_facts T s).2.1⟩
      · exact ⟨rfl, rfl⟩
    refine ⟨?_, ?_, ?_⟩
    · dsimp only
      have : (i.srcs.map (fun s => if s.handle.fed = f then deactivate T s else s)).map (·.handle) = i.srcs.map (·.handle) := by
        rw [List.map_map]; exact List.map_congr_left (fun s _ => (hh s).1)
      rw [this]; exact hi.nodup
    · intro s hs
      obtain ⟨s0, h0, rfl⟩ := List.mem_map.1 hs
      rw [(hh s0).2]; exact hi.sorted s0 h0
    · dsimp only [waiting]
      rw [hi.bytes, List.flatMap_map]
      unfold waiting
      congr 1
      congr 1
      funext s
      exact (hh s).2.symm
  | clear =>
    simp only [step, clearFutureData]
    refine ⟨?_, ?_, ?_⟩
    · dsimp only; rw [List.map_map]; exact hi.nodup
    · intro s hs
      obtain ⟨s0, _, rfl⟩ := List.mem_map.1 hs
      exact List.Pairwise.nil
    · dsimp only [waiting]
      rw [List.flatMap_map]
      have : ∀ l : List Src, l.flatMap (fun _ => ([] : List DRec)) = [] := by intro l; induction l <;> simp_all
      rw [this]; rfl
  | set o v =>
    have h := setProperty_srcs i o v
    refine ⟨?_, ?_, ?_⟩
    · simp only [step]; rw [h.1]; exact hi.nodup
    · simp only [step]; rw [h.1]; exact hi.sorted
    · simp only [step, waiting]; rw [h.1, h.2]; exact hi.bytes

theorem run_inv {i : Input} (hi : Inv i) (ops : List Op) : Inv (i.run ops) := by
  induction ops generalizing i with
  | nil => exact hi
  | cons o os ih => exact ih (step_inv hi o)

theorem fresh_inv (i : Input) (hs : i.srcs = []) (hq : i.queued = 0) : Inv i :=
  ⟨by simp [hs], by simp [hs], by simp [waiting, hs, hq, sizeOf_nil]⟩

theorem run_append (i : Input) (a b : List Op) : i.run (a ++ b) = (i.run a).run b := by
  induction a generalizing i with
  | nil => rfl
  | cons o os ih => exact ih (i.step o).1

end Verif.Input
