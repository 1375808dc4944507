import Verif.Model.Publication
/-!
# C34: publication change detection never hides a change

Specification side: what was set, what was sent, written over the history of calls only.  "Sent" is the observable outcome of
a publish call (its returned flag); everything else is read off the calls.
-/
namespace Verif.Pub

/-- The last value given to option `o` in a history, or `dflt`. -/
def lastSet (o : Input.Opt) (dflt : Int) : List Op → Int
  | [] => dflt
  | .set o' v :: ops => lastSet o (if o' = o then v else dflt) ops
  | _ :: ops => lastSet o dflt ops

/-- "Transmit only on change" is on after the history. -/
def changeOn (ops : List Op) : Prop := lastSet .onlyTransmitOnChange 0 ops ≠ 0

/-- "Buffer data" is on after the history. -/
def bufferOn (ops : List Op) : Prop := lastSet .bufferData 0 ops ≠ 0

/-- The minimum time gap after the history, in nanoseconds (the option is in milliseconds). -/
def gapOf (ops : List Op) : Time := lastSet .timeRestricted 0 ops * 1000000

/-- The publish calls of a history which sent their value, with their times, oldest first. -/
def sent (p : Pub) : List Op → List (Bytes × Time)
  | [] => []
  | .publish d t f :: ops =>
    (if (p.step (.publish d t f)).2 then [(d, t)] else []) ++ sent (p.step (.publish d t f)).1 ops
  | o :: ops => sent (p.step o).1 ops

/-- The bytes last sent; nothing yet sent counts as the empty value. -/
def lastBytes (l : List (Bytes × Time)) : Bytes := (l.getLast?.map (·.1)).getD []

/-- The time of the last transmission; time zero before the first. -/
def lastTime (l : List (Bytes × Time)) : Time := (l.getLast?.map (·.2)).getD 0

/-- Every publish call of the history happened with change detection (of the publication or of the federate) or buffering on. -/
def Watched (ops : List Op) : Prop :=
  ∀ pre d t f post, ops = pre ++ .publish d t f :: post → f = true ∨ changeOn pre ∨ bufferOn pre

/-- A newly registered publication. -/
def Fresh (p : Pub) : Prop := p.data = [] ∧ p.lastPublish = 0 ∧ p.gap = 0 ∧ p.onlyChange = false ∧ p.buffer = false

/-- Induction on a list from its end. -/
theorem snocInd {α : Type _} {P : List α → Prop} (l : List α) (nil : P []) (append_singleton : ∀ l x, P l → P (l ++ [x])) : P l := by
  have h : ∀ r : List α, P r.reverse := by
    intro r; induction r with
    | nil => exact nil
    | cons a r ih => rw [List.reverse_cons]; exact append_singleton _ _ ih
  simpa using h l.reverse

theorem run_append (p : Pub) (a b : List Op) : p.run (a ++ b) = (p.run a).run b := by
  induction a generalizing p with
  | nil => rfl
  | cons x xs ih => exact ih _

theorem sent_append (p : Pub) (a b : List Op) : p.sent (a ++ b) = p.sent a ++ (p.run a).sent b := by
  induction a generalizing p with
  | nil => rfl
  | cons x xs ih => cases x <;> simp [sent, run, ih, List.append_assoc]

theorem lastSet_snoc (o : Input.Opt) (v : Int) (ops : List Op) (x : Op) :
    lastSet o v (ops ++ [x]) = lastSet o (lastSet o v ops) [x] := by
  induction ops generalizing v with
  | nil => rfl
  | cons y ys ih => cases y <;> simp [lastSet] <;> rw [ih] <;> cases x <;> simp [lastSet]

/-- The stored fields follow the specification-side history. -/
structure Tracks (p : Pub) (ops : List Op) (l : List (Bytes × Time)) : Prop where
  change : p.onlyChange = true ↔ changeOn ops
  buffer : p.buffer = true ↔ bufferOn ops
  gap : p.gap = gapOf ops
  time : p.lastPublish = lastTime l

theorem tracks_run {p : Pub} (hf : Fresh p) (ops : List Op) : Tracks (p.run ops) ops (p.sent ops) := by
  induction ops using snocInd with
  | nil => obtain ⟨_, ht, hg, hc, hb⟩ := hf; exact ⟨by simp [run, hc, changeOn, lastSet], by simp [run, hb, bufferOn, lastSet], by simp [run, hg, gapOf, lastSet], by simp [run, sent, ht, lastTime]⟩
  | append_singleton ops x ih =>
    obtain ⟨hc, hb, hg, ht⟩ := ih
    rw [run_append, sent_append]
    generalize p.run ops = q at *
    simp only [changeOn, bufferOn, gapOf] at hc hb hg
    cases x with
    | publish d t f =>
      have key : ∀ q' b, q.step (.publish d t f) = (q', b) → (q'.onlyChange = q.onlyChange ∧ q'.buffer = q.buffer ∧ q'.gap = q.gap ∧
          q'.lastPublish = if b then t else q.lastPublish) := by
        intro q' b h
        simp only [step, checkSetValue] at h
        split at h
        · cases h; simp
        · split at h
          · split at h <;> cases h <;> simp
          · split at h <;> cases h <;> simp
      obtain ⟨k1, k2, k3, k4⟩ := key (q.step (.publish d t f)).1 (q.step (.publish d t f)).2 rfl
      refine ⟨?_, ?_, ?_, ?_⟩
      · simp only [run, changeOn, lastSet_snoc]; rw [k1, hc]; simp [lastSet]
      · simp only [run, bufferOn, lastSet_snoc]; rw [k2, hb]; simp [lastSet]
      · simp only [run, gapOf, lastSet_snoc]; rw [k3, hg]; simp [lastSet]
      · simp only [run, sent]; rw [k4]; split
        · simp [lastTime]
        · simpa using ht
    | set o v =>
      refine ⟨?_, ?_, ?_, ?_⟩
      · simp only [run, step, changeOn, lastSet_snoc]
        cases o <;> simp [setProperty, lastSet, hc]
      · simp only [run, step, bufferOn, lastSet_snoc]
        cases o <;> simp [setProperty, lastSet, hb]
      · simp only [run, step, gapOf, lastSet_snoc]
        cases o <;> simp [setProperty, lastSet, hg]
      · simp only [run, step, sent, List.append_nil]
        cases o <;> simp [setProperty, ht]
    | subscribe h n =>
      refine ⟨?_, ?_, ?_, ?_⟩ <;> simp only [run, step, changeOn, bufferOn, gapOf, lastSet_snoc, addSubscriber] <;>
        split <;> simp [lastSet, sent, hc, hb, hg, ht]
    | unsubscribe h =>
      refine ⟨?_, ?_, ?_, ?_⟩ <;> simp [run, step, changeOn, bufferOn, gapOf, lastSet_snoc, removeSubscriber, lastSet, sent, hc, hb, hg, ht]
    | disconnect f =>
      refine ⟨?_, ?_, ?_, ?_⟩ <;> simp [run, step, changeOn, bufferOn, gapOf, lastSet_snoc, disconnectFederate, lastSet, sent, hc, hb, hg, ht]

theorem Watched.init {ops : List Op} {x : Op} (h : Watched (ops ++ [x])) : Watched ops := by
  intro pre d t f post e
  exact h pre d t f (post ++ [x]) (by rw [e]; simp)

/-- Under watching, the stored bytes are the bytes last sent. -/
theorem data_run {p : Pub} (hf : Fresh p) (ops : List Op) (hw : Watched ops) : (p.run ops).data = lastBytes (p.sent ops) := by
  induction ops using snocInd with
  | nil => simp [run, sent, lastBytes, hf.1]
  | append_singleton ops x ih =>
    have hi := ih hw.init
    have ht := tracks_run hf ops
    rw [run_append, sent_append]
    generalize p.run ops = q at *
    cases x with
    | publish d t f =>
      have hon := hw ops d t f [] rfl
      rw [← ht.change, ← ht.buffer] at hon
      simp only [run, sent, step, checkSetValue, List.append_nil]
      split
      · simpa using hi
      · split
        · split
          · simp [lastBytes]
          · simpa using hi
        · rename_i h1
          split
          · simp [lastBytes]
          · exfalso; simp_all
    | set o v => simp only [run, step, sent, List.append_nil]; cases o <;> simpa [setProperty] using hi
    | subscribe h n => simp only [run, step, sent, addSubscriber, List.append_nil]; split <;> simpa using hi
    | unsubscribe h => simpa [run, step, sent, removeSubscriber] using hi
    | disconnect f => simpa [run, step, sent, disconnectFederate] using hi

/-- C34: after any history of calls on a newly registered publication, all of whose publish calls were made with change
detection or buffering on, a publish call is suppressed exactly when either the minimum gap since the last transmission (since
time zero, before the first) has not passed, or change detection applies and the offered bytes equal the bytes last sent
(the empty value, before the first). -/
theorem C34_suppressed_iff {p : Pub} (hf : Fresh p) (ops : List Op) (hw : Watched ops) (d : Bytes) (now : Time) (force : Bool) :
    ((p.run ops).step (.publish d now force)).2 = false ↔
      (gapOf ops > 0 ∧ now - lastTime (p.sent ops) < gapOf ops) ∨
      ((force = true ∨ changeOn ops) ∧ d = lastBytes (p.sent ops)) := by
  have ht := tracks_run hf ops
  have hd := data_run hf ops hw
  rw [← ht.gap, ← ht.time, ← ht.change, ← hd]
  generalize p.run ops = q at *
  simp only [step, checkSetValue]
  split
  · simp_all
  · rename_i h1
    split
    · rename_i h2
      have h2' : force = true ∨ q.onlyChange = true := by simpa [or_comm] using h2
      split
      · rename_i h3; simp [h1, h3]
      · rename_i h3; simp only [ne_eq, Decidable.not_not] at h3; simp [h3, h2']
    · rename_i h2
      have h2' : ¬ (force = true ∨ q.onlyChange = true) := by simpa [or_comm] using h2
      split <;> simp [h1, h2']

/-- C34, without assuming anything about how earlier values were published: the gap part is exact, and without change detection
a publish call outside the gap is never suppressed. -/
theorem C34_without_detection {p : Pub} (hf : Fresh p) (ops : List Op) (d : Bytes) (now : Time) (hc : ¬ changeOn ops) :
    ((p.run ops).step (.publish d now false)).2 = false ↔ (gapOf ops > 0 ∧ now - lastTime (p.sent ops) < gapOf ops) := by
  have ht := tracks_run hf ops
  rw [← ht.change] at hc
  rw [← ht.gap, ← ht.time]
  generalize p.run ops = q at *
  simp only [step, checkSetValue]
  split
  · simp_all
  · rename_i h1
    split
    · rename_i h2; simp_all
    · split <;> simp [h1]

/-- The value offered last in a history. -/
def lastOffered : List Op → Bytes → Bytes
  | [], d => d
  | .publish d _ _ :: ops, _ => lastOffered ops d
  | _ :: ops, d => lastOffered ops d

theorem lastOffered_snoc (ops : List Op) (x : Op) (d : Bytes) : lastOffered (ops ++ [x]) d = lastOffered [x] (lastOffered ops d) := by
  induction ops generalizing d with
  | nil => rfl
  | cons y ys ih => cases y <;> simp [lastOffered] <;> rw [ih]

/-- C34, what subscribers see: when no minimum gap was in force at any publish call, the value last sent is always the value last
offered — a subscriber holding the last transmission never holds anything but the current value (a publication to which only
the empty value was offered may have sent nothing). -/
theorem C34_subscribers_current {p : Pub} (hf : Fresh p) (ops : List Op) (hw : Watched ops)
    (hg : ∀ pre d t f post, ops = pre ++ .publish d t f :: post → ¬ gapOf pre > 0) :
    lastBytes (p.sent ops) = lastOffered ops [] := by
  induction ops using snocInd with
  | nil => simp [sent, lastBytes, lastOffered]
  | append_singleton ops x ih =>
    have hi := ih hw.init (fun pre d t f post e => hg pre d t f (post ++ [x]) (by rw [e]; simp))
    rw [sent_append, lastOffered_snoc]
    cases x with
    | publish d t f =>
      have hgn := hg ops d t f [] rfl
      have hs := C34_suppressed_iff hf ops hw.init d t f
      simp only [lastOffered, sent, List.append_nil]
      cases hr : ((p.run ops).step (.publish d t f)).2
      · rw [hr] at hs
        have := hs.1 rfl
        rcases this with h | h
        · exact absurd h.1 hgn
        · simpa using h.2.symm
      · simp [lastBytes]
    | _ => simpa [lastOffered, sent] using hi

/-! ### The hypotheses are met, and where the rule stops -/

/-- Detection on, two values sent, the third is a repetition. -/
def demo : List Op := [.set .onlyTransmitOnChange 1, .subscribe ⟨5, 1⟩ "in", .publish [1] 0 false, .publish [2, 3] 10 false]

theorem demo_watched : Watched demo := by
  intro pre d t f post e
  match pre, e with
  | [], e => simp [demo] at e
  | [_], e => simp [demo] at e
  | [_, _], e => simp [demo] at e; obtain ⟨rfl, rfl, _⟩ := e; right; left; simp [changeOn, lastSet]
  | [_, _, _], e => simp [demo] at e; obtain ⟨rfl, rfl, rfl, _⟩ := e; right; left; simp [changeOn, lastSet]
  | _ :: _ :: _ :: _ :: _, e => simp [demo] at e

example : Fresh {} := ⟨rfl, rfl, rfl, rfl, rfl⟩
/-- A repetition is suppressed and a change is sent, with the hypotheses of `C34_suppressed_iff`. -/
example : ((({} : Pub).run demo).step (.publish [2, 3] 20 false)).2 = false ∧ ((({} : Pub).run demo).step (.publish [1] 20 false)).2 = true := by
  decide

/-- Watching matters: a value published while both change detection and buffering are off is not remembered, so with detection
switched on again a value that differs from the last one sent is suppressed. -/
theorem C34_unwatched_counterexample :
    let ops : List Op := [.set .onlyTransmitOnChange 1, .publish [1] 0 false, .set .onlyTransmitOnChange 0, .publish [2] 10 false,
      .set .onlyTransmitOnChange 1]
    lastBytes (({} : Pub).sent ops) = [2] ∧ ((({} : Pub).run ops).step (.publish [1] 20 false)).2 = false := by
  decide

/-- The first publish of an empty value is suppressed although nothing was ever sent. -/
theorem C34_first_empty_counterexample :
    ((({} : Pub).run [.set .onlyTransmitOnChange 1]).step (.publish [] 0 false)).2 = false ∧ (({} : Pub).sent [.set .onlyTransmitOnChange 1]) = [] := by
  decide

/-- With a minimum gap the very first value is suppressed when published before the gap has passed since time zero. -/
theorem C34_initial_gap_counterexample :
    ((({} : Pub).run [.set .timeRestricted 1000]).step (.publish [7] 0 false)).2 = false ∧ (({} : Pub).sent [.set .timeRestricted 1000]) = [] := by
  decide

end Verif.Pub
