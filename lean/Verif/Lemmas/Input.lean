import Verif.Model.Input
/-! # Facts about one input source -/
namespace Verif.Input

/-- Not later than, in (time, iteration) order. -/
def Le (a b : DRec) : Prop := recLt b a = false

theorem recLt_iff {a b : DRec} : recLt a b = true ↔ a.time < b.time ∨ (a.time = b.time ∧ a.iter < b.iter) := by
  simp [recLt]

theorem le_iff {a b : DRec} : Le a b ↔ a.time < b.time ∨ (a.time = b.time ∧ a.iter ≤ b.iter) := by
  unfold Le
  rw [Bool.eq_false_iff, ne_eq, recLt_iff]; omega

theorem Le.time {a b : DRec} (h : Le a b) : a.time ≤ b.time := by rw [le_iff] at h; omega
theorem Le.refl (a : DRec) : Le a a := by rw [le_iff]; omega
theorem Le.trans {a b c : DRec} (h : Le a b) (h' : Le b c) : Le a c := by rw [le_iff] at *; omega
theorem Le.of_lt {a b : DRec} (h : recLt a b = true) : Le a b := by rw [le_iff]; rw [recLt_iff] at h; omega

/-- A queue in (time, iteration) order. -/
def Sorted (l : List DRec) : Prop := l.Pairwise Le

/-- Insertion behind everything not later. -/
def insertRec (r : DRec) (l : List DRec) : List DRec := (splitAt r l).1 ++ r :: (splitAt r l).2

theorem splitAt_append (r : DRec) (l : List DRec) : (splitAt r l).1 ++ (splitAt r l).2 = l := by
  induction l with
  | nil => rfl
  | cons e es ih => unfold splitAt; split <;> simp [ih]

theorem insertRec_perm (r : DRec) (l : List DRec) : (insertRec r l).Perm (r :: l) := by
  unfold insertRec
  have := splitAt_append r l
  exact (List.perm_middle).trans (by rw [this])

theorem mem_insertRec {r x : DRec} {l : List DRec} : x ∈ insertRec r l ↔ x = r ∨ x ∈ l := by
  rw [(insertRec_perm r l).mem_iff]; simp

theorem insertRec_nil (r : DRec) : insertRec r [] = [r] := rfl
theorem insertRec_cons (r e : DRec) (es : List DRec) :
    insertRec r (e :: es) = if recLt r e then r :: e :: es else e :: insertRec r es := by
  unfold insertRec
  rw [splitAt]
  split <;> simp

theorem insertRec_sorted {r : DRec} {l : List DRec} (h : Sorted l) : Sorted (insertRec r l) := by
  induction l with
  | nil => rw [insertRec_nil]; exact List.pairwise_singleton _ _
  | cons e es ih =>
    rw [insertRec_cons]
    have h' := List.pairwise_cons.1 h
    split
    · rename_i hlt
      refine List.pairwise_cons.2 ⟨?_, h⟩
      intro x hx
      rcases List.mem_cons.1 hx with rfl | hx
      · exact Le.of_lt hlt
      · exact (Le.of_lt hlt).trans (h'.1 x hx)
    · rename_i hlt
      refine List.pairwise_cons.2 ⟨?_, ih h'.2⟩
      intro x hx
      rcases mem_insertRec.1 hx with rfl | hx
      · simpa [Le] using hlt
      · exact h'.1 x hx

theorem insertRec_last {r : DRec} {l : List DRec} (h : ∀ x ∈ l, Le x r) : insertRec r l = l ++ [r] := by
  induction l with
  | nil => rfl
  | cons e es ih =>
    rw [insertRec_cons, if_neg (by have := h e (by simp); unfold Le at this; simp [this])]
    rw [ih (fun x hx => h x (by simp [hx]))]; rfl

theorem insertRec_filter {r : DRec} {l : List DRec} (p : DRec → Bool) (h : Sorted l) :
    (insertRec r l).filter p = if p r then insertRec r (l.filter p) else l.filter p := by
  induction l with
  | nil => rw [insertRec_nil]; cases hp : p r <;> simp [hp, insertRec_nil]
  | cons e es ih =>
    rw [insertRec_cons]
    have h' := List.pairwise_cons.1 h
    split
    · rename_i hlt
      cases hp : p r
      · simp [hp]
      · rw [List.filter_cons, if_pos hp]
        simp only [if_true]
        -- every survivor is later than `r`
        have hall : ∀ x ∈ (e :: es).filter p, recLt r x = true := by
          intro x hx
          have hx := (List.mem_filter.1 hx).1
          rcases List.mem_cons.1 hx with rfl | hx
          · exact hlt
          · have := h'.1 x hx
            rw [le_iff] at this
            rw [recLt_iff] at *; omega
        cases hq : (e :: es).filter p with
        | nil => rfl
        | cons y ys => rw [insertRec_cons, if_pos (hall y (by rw [hq]; simp))]
    · rename_i hlt
      rw [List.filter_cons, ih h'.2, List.filter_cons]
      cases hp : p r <;> cases he : p e <;> simp
      rw [insertRec_cons, if_neg hlt]

theorem getLast?_le {l : List DRec} (h : Sorted l) {b : DRec} (hb : l.getLast? = some b) : ∀ x ∈ l, Le x b := by
  intro x hx
  obtain ⟨pre, rfl⟩ := List.getLast?_eq_some_iff.1 hb
  rcases List.mem_append.1 hx with hx | hx
  · exact (List.pairwise_append.1 h).2.2 x hx b (by simp)
  · simp at hx; rw [hx]; exact Le.refl b

/-- Whenever a value is accepted it is inserted behind everything not later. -/
theorem enqueue_eq {i : Input} {s : Src} {r : DRec} {q : List DRec} (hs : Sorted s.queue)
    (h : i.enqueue s r = some q) : q = insertRec r s.queue := by
  unfold enqueue at h
  split at h
  · rename_i hl
    have : s.queue = [] := List.getLast?_eq_none_iff.1 hl
    rw [this]
    split at h
    · split at h <;> simp at h; rw [← h]; rfl
    · simp at h; rw [← h]; rfl
  · rename_i b hl
    split at h
    · rename_i hgt
      split at h <;> simp at h
      rw [← h, insertRec_last]
      intro x hx
      have := (getLast?_le hs hl x hx).time
      rw [le_iff]; omega
    · dsimp only at h
      split at h
      · split at h <;> simp at h
        rw [← h]; rfl
      · simp at h; rw [← h]; rfl

/-! ## Moving time forward -/

theorem advance_eq (p : DRec → Bool) (l : List DRec) (last : DRec) :
    advance p last l = ((l.takeWhile p).getLast?.getD last, l.takeWhile p, l.dropWhile p) := by
  induction l generalizing last with
  | nil => rfl
  | cons c cs ih =>
    unfold advance
    cases hp : p c
    · simp [hp]
    · simp only [if_true, ih c, List.takeWhile_cons, hp, List.dropWhile_cons]
      congr 1
      cases hq : cs.takeWhile p with
      | nil => simp
      | cons y ys => rw [List.getLast?_cons_cons, List.getLast?_cons]; rfl

/-- One source after everything satisfying `p` at the front of its queue has been consumed. -/
def srcMove (oc : Bool) (p : DRec → Bool) (s : Src) : Src × List DRec × Bool :=
  match (s.queue.takeWhile p).getLast? with
  | none => (s, [], false)
  | some last =>
    ({ (updateData oc s last).1 with queue := s.queue.dropWhile p }, s.queue.takeWhile p, (updateData oc s last).2)

theorem updateData_queue (oc : Bool) (s : Src) (u : DRec) : (updateData oc s u).1.queue = s.queue := by
  unfold updateData; repeat' split
  all_goals rfl
theorem updateData_handle (oc : Bool) (s : Src) (u : DRec) : (updateData oc s u).1.handle = s.handle := by
  unfold updateData; repeat' split
  all_goals rfl
theorem updateData_cur (oc : Bool) (s : Src) (u : DRec) : (updateData oc s u).1.cur = some u.data := by
  unfold updateData
  split
  · rfl
  split
  · rfl
  rename_i h
  have : s.cur = some u.data := by simpa using h
  split <;> exact this

private theorem src_eq (oc : Bool) (p : DRec → Bool) (s : Src) (c : DRec) (cs : List DRec) (hq : s.queue = c :: cs)
    (hp : p c = true) :
    srcMove oc p s = ({ (updateData oc s (advance p c cs).1).1 with queue := (advance p c cs).2.2 },
      c :: (advance p c cs).2.1, (updateData oc s (advance p c cs).1).2) := by
  unfold srcMove
  rw [advance_eq, hq]
  simp only [List.takeWhile_cons, hp, if_true, List.dropWhile_cons]
  cases hh : cs.takeWhile p with
  | nil => simp
  | cons y ys => simp [List.getLast?_cons]

theorem srcUpTo_eq (oc : Bool) (T : Time) (s : Src) : srcUpTo oc T s = srcMove oc (fun r => decide (r.time < T)) s := by
  unfold srcUpTo
  split
  · rename_i hq; simp [srcMove, hq]
  · rename_i c cs hq
    split
    · rename_i h
      have : ¬ c.time < T := by omega
      simp [srcMove, hq, this]
    · rename_i h
      rw [src_eq oc _ s c cs hq (by simp; omega)]

theorem srcInclusive_eq (oc : Bool) (T : Time) (s : Src) :
    srcInclusive oc T s = srcMove oc (fun r => decide (r.time ≤ T)) s := by
  unfold srcInclusive
  split
  · rename_i hq; simp [srcMove, hq]
  · rename_i c cs hq
    split
    · rename_i h
      have : ¬ c.time ≤ T := by omega
      simp [srcMove, hq, this]
    · rename_i h
      rw [src_eq oc _ s c cs hq (by simp; omega)]

/-- On a sorted queue the consumed front is everything satisfying a downward closed test. -/
theorem takeWhile_eq_filter {l : List DRec} {p : DRec → Bool} (h : Sorted l)
    (hp : ∀ a b, Le a b → p b = true → p a = true) : l.takeWhile p = l.filter p ∧ l.dropWhile p = l.filter (! p ·) := by
  induction l with
  | nil => simp
  | cons e es ih =>
    have h' := List.pairwise_cons.1 h
    cases he : p e
    · simp only [List.takeWhile_cons, he, List.filter_cons, List.dropWhile_cons]
      have : es.filter p = [] := by
        rw [List.filter_eq_nil_iff]
        intro x hx hpx
        rw [hp e x (h'.1 x hx) hpx] at he; cases he
      have h2 : es.filter (! p ·) = es := by
        rw [List.filter_eq_self]
        intro x hx
        cases hpx : p x
        · rfl
        · rw [hp e x (h'.1 x hx) hpx] at he; cases he
      simp [this, h2]
    · simp [he, ih h'.2]

theorem sizeOf_nil : sizeOf [] = 0 := rfl
theorem sizeOf_cons (r : DRec) (l : List DRec) : sizeOf (r :: l) = UInt64.ofNat r.data.length + sizeOf l := by
  simp [sizeOf]
theorem sizeOf_append (a b : List DRec) : sizeOf (a ++ b) = sizeOf a + sizeOf b := by
  induction a with
  | nil => simp [sizeOf_nil]
  | cons x xs ih => simp [sizeOf_cons, ih, UInt64.add_assoc]
theorem sizeOf_perm {a b : List DRec} (h : a.Perm b) : sizeOf a = sizeOf b := by
  induction h with
  | nil => rfl
  | cons x _ ih => rw [sizeOf_cons, sizeOf_cons, ih]
  | swap x y l => simp only [sizeOf_cons]; rw [← UInt64.add_assoc, ← UInt64.add_assoc, UInt64.add_comm (UInt64.ofNat _)]
  | trans _ _ h1 h2 => exact h1.trans h2

/-- A move on a source: the removed records and the kept ones make up the old queue, in order. -/
structure Consumes (oc : Bool) (s : Src) (r : Src × List DRec × Bool) : Prop where
  split : s.queue = r.2.1 ++ r.1.queue
  handle : r.1.handle = s.handle
  key : r.1.key = s.key
  deact : r.1.deact = s.deact
  keep : r.2.1 = [] → r.1 = s ∧ r.2.2 = false
  upd : ∀ u, r.2.1.getLast? = some u → ∃ q, r.1 = { (updateData oc s u).1 with queue := q } ∧ r.2.2 = (updateData oc s u).2

theorem updateData_meta (oc : Bool) (s : Src) (u : DRec) :
    (updateData oc s u).1.key = s.key ∧ (updateData oc s u).1.deact = s.deact := by
  unfold updateData; repeat' split
  all_goals exact ⟨rfl, rfl⟩

theorem srcMove_consumes (oc : Bool) (p : DRec → Bool) (s : Src) : Consumes oc s (srcMove oc p s) := by
  unfold srcMove
  split
  · exact ⟨rfl, rfl, rfl, rfl, fun _ => ⟨rfl, rfl⟩, fun u h => by simp at h⟩
  · rename_i last hl
    refine ⟨(List.takeWhile_append_dropWhile ..).symm, updateData_handle _ _ _, (updateData_meta ..).1, (updateData_meta ..).2, ?_, ?_⟩
    · intro h; dsimp only at h; rw [h] at hl; cases hl
    · intro u hu
      dsimp only at hu ⊢
      rw [hl] at hu; cases hu
      exact ⟨_, rfl, rfl⟩

theorem srcNextIter_consumes (oc : Bool) (T : Time) (s : Src) : Consumes oc s (srcNextIter oc T s) := by
  unfold srcNextIter
  split
  · rename_i hq; exact ⟨by simp [hq], rfl, rfl, rfl, fun _ => ⟨rfl, rfl⟩, fun u h => by simp at h⟩
  · rename_i c cs hq
    split
    · exact ⟨by simp, rfl, rfl, rfl, fun _ => ⟨rfl, rfl⟩, fun u h => by simp at h⟩
    · rw [advance_eq]
      have hcs := List.takeWhile_append_dropWhile (p := fun r : DRec => decide (r.time < T)) (l := cs)
      dsimp only
      generalize hd : cs.dropWhile (fun r : DRec => decide (r.time < T)) = d at hcs ⊢
      cases d with
      | nil =>
        dsimp only
        refine ⟨by rw [hq]; exact congrArg (c :: ·) hcs.symm, updateData_handle _ _ _, (updateData_meta ..).1, (updateData_meta ..).2, fun h => by simp at h, ?_⟩
        intro u hu
        dsimp only at hu ⊢
        rw [List.getLast?_cons] at hu
        simp only [Option.some.injEq] at hu
        rw [← hu]
        exact ⟨_, rfl, rfl⟩
      | cons n ns =>
        dsimp only
        split
        · rw [advance_eq]
          dsimp only
          have h2 := List.takeWhile_append_dropWhile
            (p := fun r : DRec => decide (r.time = T) && decide (r.iter = ((cs.takeWhile (fun r : DRec => decide (r.time < T))).getLast?.getD c).iter))
            (l := n :: ns)
          refine ⟨?_, updateData_handle _ _ _, (updateData_meta ..).1, (updateData_meta ..).2, fun h => by simp at h, ?_⟩
          · show s.queue = (c :: (_ ++ _)) ++ _
            rw [hq, List.cons_append, List.append_assoc, h2, hcs]
          · intro u hu
            dsimp only at hu ⊢
            rw [List.getLast?_cons, List.getLast?_append] at hu
            simp only [Option.some.injEq] at hu
            rw [← hu]
            generalize (List.takeWhile _ (n :: ns)).getLast? = x
            generalize (List.takeWhile _ cs).getLast? = y
            cases x <;> cases y <;> exact ⟨_, rfl, rfl⟩
        · refine ⟨by rw [hq]; exact congrArg (c :: ·) hcs.symm, updateData_handle _ _ _, (updateData_meta ..).1, (updateData_meta ..).2, fun h => by simp at h, ?_⟩
          intro u hu
          dsimp only at hu ⊢
          rw [List.getLast?_cons] at hu
          simp only [Option.some.injEq] at hu
          rw [← hu]
          exact ⟨_, rfl, rfl⟩

theorem Consumes.cur {oc : Bool} {s : Src} {r : Src × List DRec × Bool} (h : Consumes oc s r) {u : DRec}
    (hu : r.2.1.getLast? = some u) : r.1.cur = some u.data := by
  obtain ⟨q, e, _⟩ := h.upd u hu
  rw [e]; exact updateData_cur _ _ _

theorem Consumes.curTime {s : Src} {r : Src × List DRec × Bool} (h : Consumes false s r) {u : DRec}
    (hu : r.2.1.getLast? = some u) : r.1.curTime = u.time := by
  obtain ⟨q, e, _⟩ := h.upd u hu
  rw [e]; simp [updateData]

/-- With change filtering on, a source is reported updated exactly when its bytes changed. -/
theorem Consumes.reported {s : Src} {r : Src × List DRec × Bool} (h : Consumes true s r) : r.2.2 = true ↔ r.1.cur ≠ s.cur := by
  cases hl : r.2.1.getLast? with
  | none =>
    obtain ⟨h1, h2⟩ := h.keep (List.getLast?_eq_none_iff.1 hl)
    rw [h1, h2]; simp
  | some u =>
    obtain ⟨q, e, e2⟩ := h.upd u hl
    rw [h.cur hl, e2]
    unfold updateData
    cases hc : s.cur with
    | none => simp
    | some c =>
      by_cases hd : c = u.data
      · simp [hd]; split <;> rfl
      · simp [hd]; exact fun h => hd h.symm

/-- With change filtering off, a source is reported updated exactly when something was taken. -/
theorem Consumes.reported_any {s : Src} {r : Src × List DRec × Bool} (h : Consumes false s r) : r.2.2 = true ↔ r.2.1 ≠ [] := by
  cases hl : r.2.1.getLast? with
  | none =>
    have hn := List.getLast?_eq_none_iff.1 hl
    obtain ⟨h1, h2⟩ := h.keep hn
    rw [h2, hn]; simp
  | some u =>
    obtain ⟨q, e, e2⟩ := h.upd u hl
    have : r.2.1 ≠ [] := by intro hn; rw [hn] at hl; cases hl
    rw [e2]; simp [updateData, this]

end Verif.Input
