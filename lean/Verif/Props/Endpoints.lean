import Verif.Lemmas.Endpoint
import Verif.Model.FedData
/-!
# Messages at endpoints: properties C19 and C33

Specification.  A history is a list of queue calls (`Op`).  `arrived` lists the messages put in the queue, in arrival
order, and the second component of `run` the messages handed to the user, in order.  A message comes before another when its
time is smaller, or the times are equal and its source name is smaller (`Before`).
-/
namespace Verif.Endpoint

/-! ## Specification -/

/-- Delivery order: by time, then by source name. -/
def Before (a b : EMsg) : Prop := a.time < b.time ∨ (a.time = b.time ∧ a.source < b.source)

/-- The messages put in the queue by a history, in order of arrival. -/
def arrived : List Op → List EMsg
  | [] => []
  | .add m :: os => m :: arrived os
  | _ :: os => arrived os

/-- The messages with time `t` from source `s`. -/
def ofKey (t : Time) (s : List UInt8) (l : List EMsg) : List EMsg := l.filter fun m => decide (m.time = t ∧ m.source = s)

/-- `r` is the stable sort of `l`: same messages, in delivery order, equals in their order in `l`. -/
structure StablySorted (l r : List EMsg) : Prop where
  perm : r.Perm l
  order : r.Pairwise fun a b => ¬ Before b a
  stable : ∀ t s, ofKey t s r = ofKey t s l

/-- The messages visible after the last time update of the history: before `T` after an exclusive update, up to and
including `T` after the others. -/
def visible (ops : List Op) (t : Time) : Bool :=
  ops.foldl (fun v o => match o with
    | .upTo T => decide (t < T)
    | .inclusive T => decide (t ≤ T)
    | .nextIteration T => decide (t ≤ T)
    | .add _ => v
    | .get _ => v) false

/-- No message arrives with a time already made visible by the update before it. -/
def Timely (ops : List Op) : Prop := ∀ pre m post, ops = pre ++ Op.add m :: post → visible pre m.time = false

/-- No message arrives that should have been delivered before one already handed out. -/
def NotOvertaken (e : Endpoint) (ops : List Op) : Prop :=
  ∀ pre m post, ops = pre ++ Op.add m :: post → ∀ d ∈ (e.run pre).2, ¬ Before m d

/-- An endpoint as registered. -/
def Fresh (e : Endpoint) : Prop := e.queue = [] ∧ e.avail = 0

/-! ## Histories -/

theorem before_iff (a b : EMsg) : Before a b ↔ msgLt a b = true := (msgLt_iff a b).symm

theorem not_before_iff (a b : EMsg) : ¬ Before a b ↔ msgLt a b = false := by rw [before_iff, Bool.not_eq_true]

theorem run_snoc (e : Endpoint) (ops : List Op) (o : Op) :
    e.run (ops ++ [o]) = (((e.run ops).1.step o).1, (e.run ops).2 ++ ((e.run ops).1.step o).2.toList) := by
  induction ops generalizing e with
  | nil => simp [run]
  | cons a as ih =>
    rw [List.cons_append, run, run, ih]
    simp [List.append_assoc]

theorem run_append (e : Endpoint) (ops ops' : List Op) :
    e.run (ops ++ ops') = (((e.run ops).1.run ops').1, (e.run ops).2 ++ ((e.run ops).1.run ops').2) := by
  induction ops generalizing e with
  | nil => simp [run]
  | cons a as ih =>
    rw [List.cons_append, run, run, ih]
    simp [List.append_assoc]

theorem arrived_append (a b : List Op) : arrived (a ++ b) = arrived a ++ arrived b := by
  induction a with
  | nil => rfl
  | cons o os ih => cases o <;> simp [arrived, ih]

theorem update_queue (e : Endpoint) (T : Time) :
    (e.updateTimeUpTo T).1.queue = e.queue ∧ (e.updateTimeInclusive T).1.queue = e.queue ∧
      (e.updateTimeNextIteration T).1.queue = e.queue := by
  refine ⟨?_, ?_, ?_⟩
  · unfold updateTimeUpTo; dsimp only; split <;> rfl
  · unfold updateTimeInclusive; dsimp only; split <;> rfl
  · unfold updateTimeNextIteration; dsimp only; split <;> rfl

theorem update_avail (e : Endpoint) (T : Time) :
    (e.updateTimeUpTo T).1.avail = countFront (fun t => decide (t ≥ T)) e.queue ∧
      (e.updateTimeInclusive T).1.avail = countFront (fun t => decide (t > T)) e.queue ∧
      (e.updateTimeNextIteration T).1.avail = countFront (fun t => decide (t > T)) e.queue := by
  refine ⟨?_, ?_, ?_⟩
  · unfold updateTimeUpTo; dsimp only; split
    · rfl
    · rename_i h; simpa using Eq.symm (Classical.not_not.mp h)
  · unfold updateTimeInclusive; dsimp only; split
    · rfl
    · rename_i h; simpa using Eq.symm (Classical.not_not.mp h)
  · unfold updateTimeNextIteration; dsimp only; split
    · rfl
    · rename_i h; simpa using Eq.symm (Classical.not_not.mp h)

/-- A successful read takes the front of the queue. -/
theorem getMessage_some {e : Endpoint} {T : Time} {m : EMsg} (h : (e.getMessage T).2 = some m) :
    e.avail > 0 ∧ ∃ ms, e.queue = m :: ms ∧ m.time ≤ T ∧ (e.getMessage T).1 = { e with avail := e.avail - 1, queue := ms } := by
  unfold getMessage at h ⊢
  by_cases ha : e.avail > 0
  · rw [if_pos ha] at h ⊢
    cases hq : e.queue with
    | nil => rw [hq] at h; exact absurd h (by simp)
    | cons x xs =>
      rw [hq] at h
      dsimp only at h ⊢
      by_cases ht : x.time ≤ T
      · rw [if_pos ht] at h ⊢
        have hx : x = m := by simpa using h
        subst hx
        exact ⟨ha, xs, rfl, ht, rfl⟩
      · rw [if_neg ht] at h; exact absurd h (by simp)
  · rw [if_neg ha] at h; exact absurd h (by simp)

theorem getMessage_none {e : Endpoint} {T : Time} (h : (e.getMessage T).2 = none) : (e.getMessage T).1 = e := by
  unfold getMessage at h ⊢
  split
  · rename_i ha
    rw [if_pos ha] at h
    split
    · rfl
    · split
      · rename_i heq ht
        rw [heq] at h; dsimp only at h; rw [if_pos ht] at h; exact absurd h (by simp)
      · rfl
  · rfl

theorem run_sorted {e : Endpoint} (hf : Fresh e) (ops : List Op) : Sorted (e.run ops).1.queue :=
  snoc_ind (P := fun ops => Sorted (e.run ops).1.queue) (by show Sorted e.queue; rw [hf.1]; exact List.Pairwise.nil) (fun ops o ih => by
    rw [run_snoc]
    cases o with
    | add m => show Sorted (addMessage _ m).queue; rw [addMessage_queue ih]; exact insertMsg_sorted ih
    | upTo T => show Sorted (updateTimeUpTo _ T).1.queue; rw [(update_queue _ T).1]; exact ih
    | inclusive T => show Sorted (updateTimeInclusive _ T).1.queue; rw [(update_queue _ T).2.1]; exact ih
    | nextIteration T => show Sorted (updateTimeNextIteration _ T).1.queue; rw [(update_queue _ T).2.2]; exact ih
    | get T =>
      show Sorted (getMessage _ T).1.queue
      cases hg : (getMessage (e.run ops).1 T).2 with
      | none => rw [getMessage_none hg]; exact ih
      | some m =>
        obtain ⟨_, ms, hq, _, hr⟩ := getMessage_some hg
        rw [hr]; rw [hq] at ih; exact (List.pairwise_cons.mp ih).2) ops

/-- What one call does to the queue and the delivered list together. -/
theorem step_parts (e : Endpoint) (o : Op) :
    (∃ m, o = .add m ∧ (e.step o).2 = none ∧ (e.step o).1.queue = stableSort (e.queue ++ [m])) ∨
    ((∀ m, o ≠ .add m) ∧ (e.step o).2.toList ++ (e.step o).1.queue = e.queue) := by
  cases o with
  | add m => exact .inl ⟨m, rfl, rfl, rfl⟩
  | upTo T => exact .inr ⟨by simp, (update_queue e T).1⟩
  | inclusive T => exact .inr ⟨by simp, (update_queue e T).2.1⟩
  | nextIteration T => exact .inr ⟨by simp, (update_queue e T).2.2⟩
  | get T =>
    refine .inr ⟨by simp, ?_⟩
    show (getMessage e T).2.toList ++ (getMessage e T).1.queue = e.queue
    cases hg : (getMessage e T).2 with
    | none => rw [getMessage_none hg]; rfl
    | some m =>
      obtain ⟨_, ms, hq, _, hr⟩ := getMessage_some hg
      rw [hr, hq]; rfl

theorem arrived_other {o : Op} (h : ∀ m, o ≠ .add m) : arrived [o] = [] := by
  cases o <;> first | rfl | exact absurd rfl (h _)

/-! ## C19 -/

/-- C19 (conservation and fairness): for every history of a fresh endpoint the messages handed out and those still held are
exactly those that arrived - none lost, none duplicated, none altered - and messages of the same source and time are handed out
in their order of arrival. -/
theorem C19_no_loss_no_duplication_fifo {e : Endpoint} (hf : Fresh e) (ops : List Op) :
    ((e.run ops).2 ++ (e.run ops).1.queue).Perm (arrived ops) ∧
    ∀ t s, ofKey t s (e.run ops).2 ++ ofKey t s (e.run ops).1.queue = ofKey t s (arrived ops) :=
  snoc_ind (P := fun ops => ((e.run ops).2 ++ (e.run ops).1.queue).Perm (arrived ops) ∧
      ∀ t s, ofKey t s (e.run ops).2 ++ ofKey t s (e.run ops).1.queue = ofKey t s (arrived ops))
    (by constructor
        · show ([] ++ e.queue).Perm []; rw [hf.1]; exact List.Perm.refl _
        · intro t s; show ofKey t s [] ++ ofKey t s e.queue = _; rw [hf.1]; rfl)
    (fun ops o ih => by
      rw [run_snoc, arrived_append]
      rcases step_parts (e.run ops).1 o with ⟨m, rfl, hn, hq⟩ | ⟨hne, hq⟩
      · rw [hn]
        rw [hq, stableSort_snoc, stableSort_of_sorted (run_sorted hf ops)]
        simp only [Option.toList_none, List.append_nil]
        constructor
        · refine ((insertMsg_perm m _).append_left _).trans ?_
          refine List.Perm.trans ?_ (ih.1.append_right [m])
          rw [List.append_assoc]
          exact (List.perm_append_singleton m _).symm.append_left _
        · intro t s
          have := insertMsg_filter_key t s (m := m) (run_sorted hf ops)
          unfold ofKey at ih ⊢
          unfold sameKey at this
          rw [this, ← List.append_assoc, ih.2 t s, ← List.filter_append]
          rfl
      · rw [arrived_other hne, List.append_nil]
        dsimp only
        constructor
        · rw [List.append_assoc, hq]; exact ih.1
        · intro t s
          have h2 := ih.2 t s
          unfold ofKey at h2 ⊢
          rw [List.filter_append, List.append_assoc, ← List.filter_append, hq]
          exact h2) ops

/-- C19 (never early, never out of order): a message handed out by a read is not later than the read's time limit, and no held
message should have come before it. -/
theorem C19_delivered_is_earliest {e : Endpoint} (hf : Fresh e) (ops : List Op) (T : Time) (m : EMsg)
    (hg : ((e.run ops).1.getMessage T).2 = some m) :
    m.time ≤ T ∧ (∀ x ∈ (e.run ops).1.queue, ¬ Before x m) ∧ m ∈ arrived ops := by
  obtain ⟨_, ms, hq, ht, _⟩ := getMessage_some hg
  refine ⟨ht, ?_, ?_⟩
  · intro x hx
    rw [not_before_iff]
    have hs := run_sorted hf ops
    rw [hq] at hx hs
    rcases List.mem_cons.mp hx with rfl | hx
    · exact msgLt_irrefl _
    · exact (List.pairwise_cons.mp hs).1 x hx
  · have := (C19_no_loss_no_duplication_fifo hf ops).1
    rw [← this.mem_iff, hq]; simp

theorem overtaken_prefix {e : Endpoint} {ops : List Op} {o : Op} (h : NotOvertaken e (ops ++ [o])) : NotOvertaken e ops := by
  intro pre m post heq
  exact h pre m (post ++ [o]) (by rw [heq]; simp)

/-- C19 (order): when no message arrives that should have preceded one already handed out, the messages handed out followed by
those held are the stable sort by time and source of all that arrived. -/
theorem C19_delivery_order {e : Endpoint} (hf : Fresh e) (ops : List Op) (hn : NotOvertaken e ops) :
    StablySorted (arrived ops) ((e.run ops).2 ++ (e.run ops).1.queue) := by
  refine ⟨(C19_no_loss_no_duplication_fifo hf ops).1, ?_, fun t s => by
    have := (C19_no_loss_no_duplication_fifo hf ops).2 t s
    unfold ofKey at this ⊢
    rw [List.filter_append]; exact this⟩
  have key : Sorted ((e.run ops).2 ++ (e.run ops).1.queue) := by
    refine snoc_ind (P := fun ops => NotOvertaken e ops → Sorted ((e.run ops).2 ++ (e.run ops).1.queue)) ?_ ?_ ops hn
    · intro _; show Sorted ([] ++ e.queue); rw [hf.1]; exact List.Pairwise.nil
    · intro ops o ih hn
      have ih := ih (overtaken_prefix hn)
      rw [run_snoc]
      rcases step_parts (e.run ops).1 o with ⟨m, rfl, hnone, hq⟩ | ⟨_, hq⟩
      · rw [hnone, hq, stableSort_snoc, stableSort_of_sorted (run_sorted hf ops)]
        simp only [Option.toList_none, List.append_nil]
        rw [← insertMsg_append]
        · exact insertMsg_sorted ih
        · intro x hx
          exact (not_before_iff _ _).mp (hn ops m [] rfl x hx)
      · dsimp only
        rw [List.append_assoc, hq]; exact ih
  exact key.imp fun h => (not_before_iff _ _).mpr h

theorem visible_snoc (ops : List Op) (o : Op) (t : Time) :
    visible (ops ++ [o]) t = match o with
      | .upTo T => decide (t < T)
      | .inclusive T => decide (t ≤ T)
      | .nextIteration T => decide (t ≤ T)
      | .add _ => visible ops t
      | .get _ => visible ops t := by
  unfold visible
  rw [List.foldl_append]
  cases o <;> rfl

theorem timely_prefix {ops : List Op} {o : Op} (h : Timely (ops ++ [o])) : Timely ops := by
  intro pre m post heq
  exact h pre m (post ++ [o]) (by rw [heq]; simp)

theorem visible_mono {ops : List Op} {s t : Time} (h : s ≤ t) (hv : visible ops t = true) : visible ops s = true := by
  refine snoc_ind (P := fun ops => visible ops t = true → visible ops s = true) (by intro h; exact h) ?_ ops hv
  intro ops o ih
  rw [visible_snoc, visible_snoc]
  cases o with
  | add m => exact ih
  | get T => exact ih
  | upTo T => simp only [decide_eq_true_eq]; omega
  | inclusive T => simp only [decide_eq_true_eq]; omega
  | nextIteration T => simp only [decide_eq_true_eq]; omega

/-- C19 (availability): in a timely history the reported number of available messages is the number of held messages
that are visible at the last time update. -/
theorem C19_count_is_exact {e : Endpoint} (hf : Fresh e) (ops : List Op) (ht : Timely ops) :
    (e.run ops).1.avail = ((e.run ops).1.queue.countP fun m => visible ops m.time : Nat) := by
  refine snoc_ind (P := fun ops => Timely ops →
    (e.run ops).1.avail = ((e.run ops).1.queue.countP fun m => visible ops m.time : Nat)) ?_ ?_ ops ht
  · intro _; show e.avail = _; rw [hf.2]; show (0:Int) = ((e.queue.countP _ : Nat) : Int); rw [hf.1]; rfl
  · intro ops o ih ht
    have ih := ih (timely_prefix ht)
    have hs := run_sorted hf ops
    rw [run_snoc]
    simp only [visible_snoc]
    cases o with
    | add m =>
      show (e.run ops).1.avail = ((addMessage (e.run ops).1 m).queue.countP _ : Nat)
      rw [addMessage_queue hs, (insertMsg_perm m _).countP_eq, List.countP_cons, ht ops m [] rfl, ih]
      simp
    | upTo T =>
      show (updateTimeUpTo (e.run ops).1 T).1.avail = ((updateTimeUpTo (e.run ops).1 T).1.queue.countP _ : Nat)
      rw [(update_queue _ T).1, (update_avail _ T).1, countFront_sorted _ hs]
      · congr 2; funext m; rw [Bool.eq_iff_iff]; simp only [Bool.not_eq_true', decide_eq_false_iff_not, decide_eq_true_eq]; omega
      · intro s t h; simp only [decide_eq_true_eq, ge_iff_le]; omega
    | inclusive T =>
      show (updateTimeInclusive (e.run ops).1 T).1.avail = ((updateTimeInclusive (e.run ops).1 T).1.queue.countP _ : Nat)
      rw [(update_queue _ T).2.1, (update_avail _ T).2.1, countFront_sorted _ hs]
      · congr 2; funext m; rw [Bool.eq_iff_iff]; simp only [Bool.not_eq_true', decide_eq_false_iff_not, decide_eq_true_eq, gt_iff_lt]; omega
      · intro s t h; simp only [decide_eq_true_eq, gt_iff_lt]; omega
    | nextIteration T =>
      show (updateTimeNextIteration (e.run ops).1 T).1.avail = ((updateTimeNextIteration (e.run ops).1 T).1.queue.countP _ : Nat)
      rw [(update_queue _ T).2.2, (update_avail _ T).2.2, countFront_sorted _ hs]
      · congr 2; funext m; rw [Bool.eq_iff_iff]; simp only [Bool.not_eq_true', decide_eq_false_iff_not, decide_eq_true_eq, gt_iff_lt]; omega
      · intro s t h; simp only [decide_eq_true_eq, gt_iff_lt]; omega
    | get T =>
      show (getMessage (e.run ops).1 T).1.avail = ((getMessage (e.run ops).1 T).1.queue.countP fun m => visible ops m.time : Nat)
      cases hg : (getMessage (e.run ops).1 T).2 with
      | none => rw [getMessage_none hg]; exact ih
      | some m =>
        obtain ⟨ha, ms, hq, _, hr⟩ := getMessage_some hg
        rw [hr]
        show (e.run ops).1.avail - 1 = ((ms.countP fun m => visible ops m.time : Nat) : Int)
        rw [ih, hq] at ha
        rw [hq] at hs
        rw [ih, hq, List.countP_cons]
        have hv : visible ops m.time = true := by
          have hpos : 0 < (m :: ms).countP (fun m => visible ops m.time) := by omega
          obtain ⟨x, hx, hvx⟩ := List.countP_pos_iff.mp hpos
          rcases List.mem_cons.mp hx with rfl | hx
          · exact hvx
          · refine visible_mono ?_ hvx
            rcases (msgLt_false_iff x m).mp ((List.pairwise_cons.mp hs).1 x hx) with h1 | ⟨h1, _⟩ <;> omega
        rw [hv]; simp

/-- C19 (a message is there when it is due): in a timely history a read whose limit includes everything visible
returns a message exactly when a held message is visible. -/
theorem C19_read_succeeds_iff_due {e : Endpoint} (hf : Fresh e) (ops : List Op) (ht : Timely ops) (T : Time)
    (hT : ∀ t, visible ops t = true → t ≤ T) :
    (∃ m, ((e.run ops).1.getMessage T).2 = some m) ↔ ∃ x ∈ (e.run ops).1.queue, visible ops x.time = true := by
  have hc := C19_count_is_exact hf ops ht
  have hs := run_sorted hf ops
  constructor
  · rintro ⟨m, hm⟩
    obtain ⟨ha, _⟩ := getMessage_some hm
    rw [hc] at ha
    obtain ⟨x, hx, hv⟩ := List.countP_pos_iff.mp (show 0 < (e.run ops).1.queue.countP (fun m => visible ops m.time) by omega)
    exact ⟨x, hx, hv⟩
  · rintro ⟨x, hx, hv⟩
    have hpos : 0 < (e.run ops).1.queue.countP (fun m => visible ops m.time) := List.countP_pos_iff.mpr ⟨x, hx, hv⟩
    have ha : (e.run ops).1.avail > 0 := by rw [hc]; omega
    unfold getMessage
    rw [if_pos ha]
    cases hq : (e.run ops).1.queue with
    | nil => rw [hq] at hx; simp at hx
    | cons y ys =>
      rw [hq] at hx hs
      have hle : y.time ≤ x.time := by
        rcases List.mem_cons.mp hx with rfl | hx
        · exact Int.le_refl _
        · rcases (msgLt_false_iff x y).mp ((List.pairwise_cons.mp hs).1 x hx) with h1 | ⟨h1, _⟩ <;> omega
      have := hT _ hv
      dsimp only
      rw [if_pos (by omega)]
      exact ⟨y, rfl⟩

/-- C19 (the count never exceeds what is held), for every history, timely or not. -/
theorem C19_count_bounded {e : Endpoint} (hf : Fresh e) (ops : List Op) :
    0 ≤ (e.run ops).1.avail ∧ (e.run ops).1.avail ≤ (e.run ops).1.queue.length := by
  refine snoc_ind (P := fun ops => 0 ≤ (e.run ops).1.avail ∧ (e.run ops).1.avail ≤ (e.run ops).1.queue.length) ?_ ?_ ops
  · show 0 ≤ e.avail ∧ e.avail ≤ e.queue.length
    rw [hf.1, hf.2]; exact ⟨Int.le_refl _, Int.le_refl _⟩
  · intro ops o ih
    rw [run_snoc]
    cases o with
    | add m =>
      show 0 ≤ (e.run ops).1.avail ∧ (e.run ops).1.avail ≤ ((addMessage (e.run ops).1 m).queue.length : Int)
      rw [addMessage_queue (run_sorted hf ops), (insertMsg_perm m _).length_eq, List.length_cons]
      omega
    | upTo T =>
      show 0 ≤ (updateTimeUpTo (e.run ops).1 T).1.avail ∧ _ ≤ ((updateTimeUpTo (e.run ops).1 T).1.queue.length : Int)
      rw [(update_queue _ T).1]
      show 0 ≤ (updateTimeUpTo (e.run ops).1 T).1.avail ∧ (updateTimeUpTo (e.run ops).1 T).1.avail ≤ _
      rw [(update_avail _ T).1]; exact countFront_le _ _
    | inclusive T =>
      show 0 ≤ (updateTimeInclusive (e.run ops).1 T).1.avail ∧ (updateTimeInclusive (e.run ops).1 T).1.avail ≤ ((updateTimeInclusive (e.run ops).1 T).1.queue.length : Int)
      rw [(update_queue _ T).2.1, (update_avail _ T).2.1]; exact countFront_le _ _
    | nextIteration T =>
      show 0 ≤ (updateTimeNextIteration (e.run ops).1 T).1.avail ∧ (updateTimeNextIteration (e.run ops).1 T).1.avail ≤ ((updateTimeNextIteration (e.run ops).1 T).1.queue.length : Int)
      rw [(update_queue _ T).2.2, (update_avail _ T).2.2]; exact countFront_le _ _
    | get T =>
      show 0 ≤ (getMessage (e.run ops).1 T).1.avail ∧ (getMessage (e.run ops).1 T).1.avail ≤ ((getMessage (e.run ops).1 T).1.queue.length : Int)
      cases hg : (getMessage (e.run ops).1 T).2 with
      | none => rw [getMessage_none hg]; exact ih
      | some m =>
        obtain ⟨ha, ms, hq, _, hr⟩ := getMessage_some hg
        rw [hr]
        have := ih.2
        rw [hq, List.length_cons] at this
        dsimp only
        constructor <;> omega

/-! ## Examples and the late-message defect -/

/-- Two sources, arrival out of order, a read before and after the second update. -/
def demo : List Op :=
  [.add ⟨5, [66], [1]⟩, .add ⟨5, [65], [2]⟩, .add ⟨3, [67], [3]⟩, .inclusive 4, .get 4, .get 4, .add ⟨5, [66], [4]⟩, .upTo 6, .get 6]

def timelyCheck (seen : List Op) : List Op → Bool
  | [] => true
  | .add m :: os => !visible seen m.time && timelyCheck (seen ++ [.add m]) os
  | o :: os => timelyCheck (seen ++ [o]) os

theorem timely_of_check {ops : List Op} (hc : timelyCheck [] ops = true) : Timely ops := by
  have : ∀ (ops seen : List Op), timelyCheck seen ops = true → ∀ pre m post, ops = pre ++ Op.add m :: post →
      visible (seen ++ pre) m.time = false := by
    intro ops
    induction ops with
    | nil => intro _ _ pre m post e; simp at e
    | cons o os ih =>
      intro seen hc pre m post heq
      cases pre with
      | nil =>
        simp only [List.nil_append, List.cons.injEq] at heq
        rw [heq.1] at hc
        simp only [timelyCheck, Bool.and_eq_true, Bool.not_eq_true'] at hc
        simpa using hc.1
      | cons p ps =>
        simp only [List.cons_append, List.cons.injEq] at heq
        have hc' : timelyCheck (seen ++ [o]) os = true := by
          cases o <;> simp only [timelyCheck, Bool.and_eq_true] at hc <;> first | exact hc.2 | exact hc
        have := ih (seen ++ [o]) hc' ps m post heq.2
        rw [heq.1] at this
        simpa using this
  intro pre m post heq
  simpa using this ops [] hc pre m post heq

theorem demo_timely : Timely demo := timely_of_check (by decide)

theorem demo_run : (Endpoint.run {} demo).2 = [⟨3, [67], [3]⟩, ⟨5, [65], [2]⟩] ∧ (Endpoint.run {} demo).1.avail = 2 := by decide

theorem demo_fresh : Fresh {} := ⟨rfl, rfl⟩

/-- C19, boundary: without timeliness an available message can be hidden.  A message arriving late, after the update that made
its time visible, takes the place of one already counted: the two reads made at time 5 return the late message and
then nothing although a message of time 4 is still held. -/
theorem C19_late_message_hides_available :
    ∃ (ops : List Op) (m : EMsg), (Endpoint.run {} ops).2 = [⟨2, [], [9]⟩] ∧ m ∈ (Endpoint.run {} ops).1.queue ∧ m.time < 5 ∧
      ((Endpoint.run {} ops).1.getMessage 5).2 = none ∧ (Endpoint.run {} (ops.take 2)).1.avail = 1 :=
  ⟨[.add ⟨4, [], [1]⟩, .inclusive 5, .add ⟨2, [], [9]⟩, .get 5], ⟨4, [], [1]⟩, by decide⟩

end Verif.Endpoint
