import Verif.Props.Inputs
/-!
# Change filtering and minimum gap on inputs: property C18

Specification.  `InOrder` says that values of one source arrive in (time, iteration) order, as one publisher sends them.
The change filter is judged by comparing the filtered input with an identical unfiltered one; the gap by the stamps of
the accepted values.
-/
namespace Verif.Input

/-- Values of one source arrive in (time, iteration) order. -/
def InOrder (ops : List Op) : Prop :=
  ops.Pairwise fun o o' => ∀ h t it d t' it' d', o = Op.add h t it d → o' = Op.add h t' it' d' →
    t < t' ∨ (t = t' ∧ it ≤ it')

/-- Arrivals, time updates and new sources only. -/
def Running (o : Op) : Prop :=
  match o with
  | .add .. | .upTo _ | .inclusive _ | .addSource .. => True
  | _ => False

/-! ## Accepting in order -/

/-- Bytes and stamp of the last value accepted and still known: back of the queue, or the current value. -/
def lastData (s : Src) : Option Bytes := match s.queue.getLast? with | some b => some b.data | none => s.cur
def lastTime (s : Src) : Option Time := match s.queue.getLast? with | some b => some b.time | none => s.cur.map fun _ => s.curTime

theorem splitAt_all {r : DRec} {l : List DRec} (h : ∀ x ∈ l, Le x r) : splitAt r l = (l, []) := by
  induction l with
  | nil => rfl
  | cons e es ih =>
    unfold splitAt
    rw [if_neg (by have := h e (by simp); unfold Le at this; simp [this]), ih (fun x hx => h x (by simp [hx]))]

theorem enqueue_inorder (i : Input) (s : Src) (r : DRec) (h : ∀ x ∈ s.queue, Le x r) :
    i.enqueue s r = match lastTime s, lastData s with
      | some t, some d => if i.rejects t d r.time r.data then none else some (s.queue ++ [r])
      | _, _ => some (s.queue ++ [r]) := by
  unfold enqueue lastTime lastData
  cases hl : s.queue.getLast? with
  | none =>
    have hq : s.queue = [] := List.getLast?_eq_none_iff.1 hl
    cases hc : s.cur <;> simp [hq]
  | some b =>
    dsimp only
    split
    · rfl
    · rw [splitAt_all h]
      dsimp only
      rw [hl]

/-- Whether a value is accepted depends only on its source's slot. -/
theorem addData_accept_iff {i : Input} (hi : Inv i) (h : GHandle) (t : Time) (it : Nat) (b : Bytes) :
    (i.addData h t it (some b)).2 = true ↔ ∃ s, i.slot h = some s ∧ t ≤ s.deact ∧ (i.enqueue s ⟨t, it, b⟩).isSome := by
  constructor
  · intro hb
    obtain ⟨b', s, e, hs, hd, he, _⟩ := addData_true hi hb
    cases e
    exact ⟨s, hs, hd, he⟩
  · rintro ⟨s, hs, hd, he⟩
    have : ∀ l : List Src, l.find? (fun x => decide (x.handle = h)) = some s →
        ∃ l', i.addToSrcs h ⟨t, it, b⟩ l = some l' := by
      intro l
      induction l with
      | nil => intro h; cases h
      | cons a as ih =>
        intro hf
        unfold addToSrcs
        by_cases ha : a.handle = h
        · simp [ha] at hf
          subst hf
          obtain ⟨q, hq⟩ := Option.isSome_iff_exists.1 he
          simp only [ha, if_true, hq]
          rw [if_neg (by omega)]
          exact ⟨_, rfl⟩
        · simp only [ha, if_false]
          rw [List.find?_cons] at hf
          simp only [ha, decide_false] at hf
          obtain ⟨l', hl'⟩ := ih hf
          exact ⟨a :: l', by rw [hl']; rfl⟩
    obtain ⟨l', hl'⟩ := this i.srcs hs
    simp only [addData, hl']

/-! ## Change filtering -/

/-- Drop every value equal to the one before it. -/
def dedup : Option Bytes → List DRec → List DRec
  | _, [] => []
  | c, r :: rs => if c = some r.data then dedup c rs else r :: dedup (some r.data) rs

/-- Bytes after applying a list of values. -/
def lastOr : Option Bytes → List DRec → Option Bytes
  | c, [] => c
  | _, r :: rs => lastOr (some r.data) rs

theorem lastOr_append (c : Option Bytes) (a b : List DRec) : lastOr c (a ++ b) = lastOr (lastOr c a) b := by
  induction a generalizing c with
  | nil => rfl
  | cons r rs ih => exact ih _

theorem lastOr_dedup (c : Option Bytes) (l : List DRec) : lastOr c (dedup c l) = lastOr c l := by
  induction l generalizing c with
  | nil => rfl
  | cons r rs ih =>
    unfold dedup
    split
    · rename_i h; rw [ih]; subst h; rfl
    · exact ih _

theorem dedup_append (c : Option Bytes) (a b : List DRec) : dedup c (a ++ b) = dedup c a ++ dedup (lastOr c a) b := by
  induction a generalizing c with
  | nil => rfl
  | cons r rs ih =>
    rw [List.cons_append]
    rw [show lastOr c (r :: rs) = lastOr (some r.data) rs from rfl]
    simp only [dedup]
    split
    · rename_i h; rw [ih]; subst h; rfl
    · rw [ih]; rfl

theorem mem_dedup {c : Option Bytes} {l : List DRec} {x : DRec} (h : x ∈ dedup c l) : x ∈ l := by
  induction l generalizing c with
  | nil => cases h
  | cons r rs ih =>
    unfold dedup at h
    split at h
    · simp [ih h]
    · rcases List.mem_cons.1 h with rfl | h
      · simp
      · simp [ih h]

theorem lastOr_eq (c : Option Bytes) (l : List DRec) :
    lastOr c l = match l.getLast? with | some b => some b.data | none => c := by
  induction l generalizing c with
  | nil => rfl
  | cons r rs ih =>
    show lastOr (some r.data) rs = _
    rw [ih, List.getLast?_cons]
    cases rs.getLast? <;> rfl

theorem takeWhile_append_all {p : DRec → Bool} {a b : List DRec} (ha : ∀ x ∈ a, p x = true) (hb : ∀ x ∈ b, p x = false) :
    (a ++ b).takeWhile p = a ∧ (a ++ b).dropWhile p = b := by
  induction a with
  | nil =>
    cases b with
    | nil => simp
    | cons x xs => simp [hb x (by simp)]
  | cons x xs ih =>
    have h1 := ih (fun y hy => ha y (by simp [hy]))
    simp [ha x (by simp), h1]

/-- A filtered slot against an unfiltered one. -/
structure Same (a b : Src) : Prop where
  deact : a.deact = b.deact
  cur : a.cur = b.cur
  queue : a.queue = dedup b.cur b.queue
  sorted : Sorted b.queue

theorem srcMove_cur (oc : Bool) (p : DRec → Bool) (s : Src) :
    (srcMove oc p s).1.cur = lastOr s.cur (s.queue.takeWhile p) ∧ (srcMove oc p s).1.queue = s.queue.dropWhile p := by
  rw [lastOr_eq]
  unfold srcMove
  cases hl : (s.queue.takeWhile p).getLast? with
  | none =>
    have h1 := List.getLast?_eq_none_iff.1 hl
    have h2 := List.takeWhile_append_dropWhile (p := p) (l := s.queue)
    rw [h1] at h2
    exact ⟨rfl, by simpa using h2.symm⟩
  | some b => exact ⟨updateData_cur _ _ _, rfl⟩

theorem same_move {a b : Src} (h : Same a b) (p : Time → Bool) (hp : ∀ t t', t ≤ t' → p t' = true → p t = true) :
    Same (srcMove true (fun r => p r.time) a).1 (srcMove false (fun r => p r.time) b).1 := by
  obtain ⟨ha1, ha2⟩ := srcMove_cur true (fun r => p r.time) a
  obtain ⟨hb1, hb2⟩ := srcMove_cur false (fun r => p r.time) b
  obtain ⟨ht, hd⟩ := takeWhile_eq_filter (p := fun r => p r.time) h.sorted (fun x y hxy hy => hp _ _ hxy.time hy)
  have hsplit := List.takeWhile_append_dropWhile (p := fun r : DRec => p r.time) (l := b.queue)
  have hq : a.queue = dedup b.cur (b.queue.takeWhile (fun r => p r.time)) ++
      dedup (lastOr b.cur (b.queue.takeWhile (fun r => p r.time))) (b.queue.dropWhile (fun r => p r.time)) := by
    rw [← dedup_append, hsplit]; exact h.queue
  have h1 : ∀ x ∈ dedup b.cur (b.queue.takeWhile (fun r => p r.time)), p x.time = true :=
    fun x hx => mem_takeWhile (mem_dedup hx)
  have h2 : ∀ x ∈ dedup (lastOr b.cur (b.queue.takeWhile (fun r => p r.time))) (b.queue.dropWhile (fun r => p r.time)),
      p x.time = false := by
    intro x hx
    have := mem_dedup hx
    rw [hd] at this
    simpa using (List.mem_filter.1 this).2
  obtain ⟨e1, e2⟩ := takeWhile_append_all (p := fun r => p r.time) h1 h2
  rw [← hq] at e1 e2
  refine ⟨?_, ?_, ?_, ?_⟩
  · rw [(srcMove_consumes true _ a).deact, (srcMove_consumes false _ b).deact, h.deact]
  · rw [ha1, hb1, e1, h.cur, lastOr_dedup]
  · rw [ha2, hb2, hb1, e2]
  · rw [hb2, hd]; exact h.sorted.sublist List.filter_sublist

/-- The two inputs agree on every source. -/
def Agree (i j : Input) : Prop :=
  ∀ h, (i.slot h = none ∧ j.slot h = none) ∨ ∃ a b, i.slot h = some a ∧ j.slot h = some b ∧ Same a b

theorem agree_move {i j : Input} (h : Agree i j) (p : Time → Bool) (hp : ∀ t t', t ≤ t' → p t' = true → p t = true) :
    Agree (i.moved (srcMove true (fun r => p r.time))) (j.moved (srcMove false (fun r => p r.time))) := by
  intro g
  rw [moved_slot (oc := true) (fun s _ => srcMove_consumes _ _ s), moved_slot (oc := false) (fun s _ => srcMove_consumes _ _ s)]
  rcases h g with ⟨e1, e2⟩ | ⟨a, b, e1, e2, hs⟩
  · left; rw [e1, e2]; exact ⟨rfl, rfl⟩
  · right; rw [e1, e2]; exact ⟨_, _, rfl, rfl, same_move hs p hp⟩

structure Sim (i j : Input) : Prop where
  invI : Inv i
  invJ : Inv j
  onI : i.onlyChange = true
  offJ : j.onlyChange = false
  gapI : i.gap ≤ 0
  gapJ : j.gap ≤ 0
  agree : Agree i j

theorem addSource_deact {i : Input} (h : GHandle) (n ty u : String) (s' : Src)
    (hs : (i.addSource h n ty u).1.slot h = some s') : s'.deact = maxVal ∨ ∃ s, i.slot h = some s ∧ s' = s ∧ maxVal ≤ s.deact := by
  unfold addSource at hs
  cases hr : reconnect h u i.srcs with
  | none =>
    rw [hr] at hs
    left
    unfold slot at hs; dsimp only at hs
    rw [find_pre (reconnect_none hr)] at hs
    simp at hs; rw [← hs]
  | some r =>
    obtain ⟨ss, b⟩ := r
    rw [hr] at hs
    have : ∀ (l ss : List Src) (b : Bool), reconnect h u l = some (ss, b) → ∀ s', ss.find? (fun s => decide (s.handle = h)) = some s' →
        s'.deact = maxVal ∨ ∃ s, l.find? (fun s => decide (s.handle = h)) = some s ∧ s' = s ∧ maxVal ≤ s.deact := by
      intro l
      induction l with
      | nil => intro ss b h; cases h
      | cons a as ih =>
        intro ss b he s' hf
        unfold reconnect at he
        by_cases ha : a.handle = h
        · rw [if_pos ha] at he
          split at he
          · cases he; simp [ha] at hf; left; rw [← hf]
          · cases he; simp [ha] at hf; right; exact ⟨a, by simp [ha], hf.symm, by rename_i h; omega⟩
        · rw [if_neg ha] at he
          cases hr : reconnect h u as with
          | none => rw [hr] at he; cases he
          | some r =>
            rw [hr] at he; cases he
            rw [List.find?_cons] at hf
            simp only [ha, decide_false] at hf
            rcases ih r.1 r.2 hr s' hf with h1 | ⟨s, h1, h2⟩
            · exact .inl h1
            · right; refine ⟨s, ?_, h2⟩
              rw [List.find?_cons]; simp [ha, h1]
    exact this i.srcs ss b hr s' hs

theorem reconnect_deact {h : GHandle} {u : String} {l ss : List Src} {b : Bool} {s : Src}
    (hr : reconnect h u l = some (ss, b)) (hs : l.find? (fun s => decide (s.handle = h)) = some s) (hd : maxVal ≤ s.deact) :
    ss = l := by
  induction l generalizing ss with
  | nil => cases hs
  | cons a as ih =>
    unfold reconnect at hr
    by_cases ha : a.handle = h
    · simp [ha] at hs
      subst hs
      rw [if_pos ha, if_neg (by omega)] at hr
      cases hr; rfl
    · rw [if_neg ha] at hr
      rw [List.find?_cons] at hs
      simp only [ha, decide_false] at hs
      cases hr' : reconnect h u as with
      | none => rw [hr'] at hr; cases hr
      | some r => rw [hr'] at hr; cases hr; rw [ih hr' hs]

theorem sim_step {i j : Input} (h : Sim i j) (o : Op) (hrun : Running o)
    (hord : ∀ g t it d, o = .add g t it d → ∀ s, j.slot g = some s → ∀ x ∈ s.queue, x.time < t ∨ (x.time = t ∧ x.iter ≤ it)) :
    Sim (i.step o).1 (j.step o).1 := by
  cases o with
  | add g t it d =>
    have hkeep : ∀ (k : Input), (k.addData g t it d).1.onlyChange = k.onlyChange ∧ (k.addData g t it d).1.gap = k.gap := by
      intro k; unfold addData; repeat' split
      all_goals exact ⟨rfl, rfl⟩
    refine ⟨step_inv h.invI _, step_inv h.invJ _, (hkeep i).1.trans h.onI, (hkeep j).1.trans h.offJ,
      by rw [show (i.step (.add g t it d)).1.gap = i.gap from (hkeep i).2]; exact h.gapI,
      by rw [show (j.step (.add g t it d)).1.gap = j.gap from (hkeep j).2]; exact h.gapJ, ?_⟩
    simp only [step]
    cases d with
    | none => exact h.agree
    | some d =>
      rcases h.agree g with ⟨e1, e2⟩ | ⟨a, b, e1, e2, hs⟩
      · have r1 : (i.addData g t it (some d)).2 = false := by
          rw [Bool.eq_false_iff]; intro hb
          obtain ⟨s, hs, _⟩ := (addData_accept_iff h.invI g t it d).1 hb
          rw [e1] at hs; cases hs
        have r2 : (j.addData g t it (some d)).2 = false := by
          rw [Bool.eq_false_iff]; intro hb
          obtain ⟨s, hs, _⟩ := (addData_accept_iff h.invJ g t it d).1 hb
          rw [e2] at hs; cases hs
        rw [addData_false r1, addData_false r2]; exact h.agree
      · by_cases hd : t ≤ b.deact
        · have hle : ∀ x ∈ b.queue, Le x ⟨t, it, d⟩ := fun x hx => le_iff.2 (hord g t it (some d) rfl b e2 x hx)
          have hleA : ∀ x ∈ a.queue, Le x ⟨t, it, d⟩ := by
            intro x hx; rw [hs.queue] at hx; exact hle x (mem_dedup hx)
          -- the unfiltered input accepts
          have hrejJ : ∀ u v w x, j.rejects u v w x = false := by
            intro u v w x; unfold rejects; rw [h.offJ]; have := h.gapJ; simp; omega
          have heJ : j.enqueue b ⟨t, it, d⟩ = some (b.queue ++ [⟨t, it, d⟩]) := by
            rw [enqueue_inorder j b _ hle]; simp only [hrejJ]; split <;> rfl
          have hbJ : (j.addData g t it (some d)).2 = true :=
            (addData_accept_iff h.invJ g t it d).2 ⟨b, e2, hd, by rw [heJ]; rfl⟩
          obtain ⟨b', s, eb, es, _, _, es', eoth, _⟩ := addData_true h.invJ hbJ
          cases eb
          rw [e2] at es; cases es
          rw [insertRec_last hle] at es'
          -- the filtered one accepts unless the bytes repeat
          have hlast : lastData a = lastOr b.cur b.queue := by
            rw [← lastOr_dedup, ← hs.queue, lastOr_eq, ← hs.cur]; rfl
          have hrejI : ∀ u v, i.rejects u v t d = decide (v = d) := by
            intro u v; unfold rejects; rw [h.onI]; have := h.gapI
            simp; intro h; omega
          have heI : i.enqueue a ⟨t, it, d⟩ = if lastOr b.cur b.queue = some d then none else some (a.queue ++ [⟨t, it, d⟩]) := by
            rw [enqueue_inorder i a _ hleA, ← hlast]
            unfold lastTime lastData
            cases a.queue.getLast? with
            | some x => simp only [hrejI]; simp
            | none =>
              cases a.cur with
              | none => simp
              | some c => simp only [Option.map_some, hrejI]; simp
          have hother : ∀ g', g' ≠ g → (i.addData g t it (some d)).1.slot g' = i.slot g' := by
            intro g' hne
            cases hbI : (i.addData g t it (some d)).2
            · rw [addData_false hbI]
            · obtain ⟨_, _, _, _, _, _, _, eo, _⟩ := addData_true h.invI hbI
              exact eo g' hne
          intro g'
          by_cases hg : g' = g
          · subst hg
            right
            rw [es']
            by_cases hrep : lastOr b.cur b.queue = some d
            · have hbI : (i.addData g' t it (some d)).2 = false := by
                rw [Bool.eq_false_iff]; intro hb
                obtain ⟨s, hs', _, he⟩ := (addData_accept_iff h.invI g' t it d).1 hb
                rw [e1] at hs'; cases hs'
                rw [heI, if_pos hrep] at he; cases he
              rw [addData_false hbI]
              refine ⟨a, _, e1, rfl, hs.deact, hs.cur, ?_, ?_⟩
              · dsimp only
                rw [dedup_append, ← hs.queue]
                simp [dedup, hrep]
              · dsimp only
                rw [← insertRec_last hle]; exact insertRec_sorted hs.sorted
            · have hbI : (i.addData g' t it (some d)).2 = true :=
                (addData_accept_iff h.invI g' t it d).2 ⟨a, e1, by rw [hs.deact]; exact hd, by rw [heI, if_neg hrep]; rfl⟩
              obtain ⟨b', s, eb, es2, _, _, es2', _⟩ := addData_true h.invI hbI
              cases eb
              rw [e1] at es2; cases es2
              rw [insertRec_last hleA] at es2'
              refine ⟨_, _, es2', rfl, hs.deact, hs.cur, ?_, ?_⟩
              · dsimp only
                rw [dedup_append, ← hs.queue]
                simp [dedup, hrep]
              · dsimp only
                rw [← insertRec_last hle]; exact insertRec_sorted hs.sorted
          · rw [hother g' hg, eoth g' hg]; exact h.agree g'
        · have r1 : (i.addData g t it (some d)).2 = false := by
            rw [Bool.eq_false_iff]; intro hb
            obtain ⟨s, hs', hd', _⟩ := (addData_accept_iff h.invI g t it d).1 hb
            rw [e1] at hs'; cases hs'
            rw [hs.deact] at hd'; exact hd hd'
          have r2 : (j.addData g t it (some d)).2 = false := by
            rw [Bool.eq_false_iff]; intro hb
            obtain ⟨s, hs', hd', _⟩ := (addData_accept_iff h.invJ g t it d).1 hb
            rw [e2] at hs'; cases hs'
            exact hd hd'
          rw [addData_false r1, addData_false r2]; exact h.agree
  | upTo T =>
    refine ⟨step_inv h.invI _, step_inv h.invJ _, ?_, ?_, ?_, ?_, ?_⟩
    all_goals simp only [step, updateTimeUpTo_eq]
    · exact h.onI
    · exact h.offJ
    · exact h.gapI
    · exact h.gapJ
    · rw [h.onI, h.offJ, show srcUpTo true T = srcMove true (fun r => (fun t => decide (t < T)) r.time) from by funext s; exact srcUpTo_eq _ _ _,
        show srcUpTo false T = srcMove false (fun r => (fun t => decide (t < T)) r.time) from by funext s; exact srcUpTo_eq _ _ _]
      exact agree_move h.agree (fun t => decide (t < T)) (fun t t' hle h' => by simp at *; omega)
  | inclusive T =>
    refine ⟨step_inv h.invI _, step_inv h.invJ _, ?_, ?_, ?_, ?_, ?_⟩
    all_goals simp only [step, updateTimeInclusive_eq]
    · exact h.onI
    · exact h.offJ
    · exact h.gapI
    · exact h.gapJ
    · rw [h.onI, h.offJ, show srcInclusive true T = srcMove true (fun r => (fun t => decide (t ≤ T)) r.time) from by funext s; exact srcInclusive_eq _ _ _,
        show srcInclusive false T = srcMove false (fun r => (fun t => decide (t ≤ T)) r.time) from by funext s; exact srcInclusive_eq _ _ _]
      exact agree_move h.agree (fun t => decide (t ≤ T)) (fun t t' hle h' => by simp at *; omega)
  | addSource g n ty u =>
    obtain ⟨fi, oi, si, ni, ki, ki'⟩ := addSource_facts h.invI g n ty u
    obtain ⟨fj, oj, sj, nj, kj, kj'⟩ := addSource_facts h.invJ g n ty u
    refine ⟨fi, fj, ki.trans h.onI, kj.trans h.offJ, by simp only [step]; rw [ki']; exact h.gapI,
      by simp only [step]; rw [kj']; exact h.gapJ, ?_⟩
    simp only [step]
    intro g'
    by_cases hg : g' = g
    · subst hg
      right
      rcases h.agree g' with ⟨e1, e2⟩ | ⟨a, b, e1, e2, hs⟩
      · obtain ⟨a, e3, e4, e5, _⟩ := ni e1
        obtain ⟨b, f3, f4, f5, _⟩ := nj e2
        refine ⟨a, b, e3, f3, ?_, by rw [e5, f5], by rw [e4, f4]; rfl, by rw [f4]; exact List.Pairwise.nil⟩
        rcases addSource_deact g' n ty u a e3 with h1 | ⟨s, h1, _⟩
        · rcases addSource_deact g' n ty u b f3 with h2 | ⟨s, h2, _⟩
          · rw [h1, h2]
          · rw [e2] at h2; cases h2
        · rw [e1] at h1; cases h1
      · obtain ⟨a', e3, e4, e5, _⟩ := si a e1
        obtain ⟨b', f3, f4, f5, _⟩ := sj b e2
        refine ⟨a', b', e3, f3, ?_, by rw [e5, f5, hs.cur], by rw [e4, f4, f5]; exact hs.queue, by rw [f4]; exact hs.sorted⟩
        by_cases hdd : maxVal ≤ a.deact
        · -- still connected on both sides: unchanged
          have hsame : ∀ (k : Input) (s : Src), k.slot g' = some s → maxVal ≤ s.deact → (k.addSource g' n ty u).1.slot g' = some s := by
            intro k s hk hkd
            unfold addSource
            cases hr : reconnect g' u k.srcs with
            | none => exact absurd (slot_some hk).2 (reconnect_none hr s (slot_some hk).1)
            | some r =>
              obtain ⟨ss, bb⟩ := r
              dsimp only
              have := reconnect_deact hr hk hkd
              unfold slot; dsimp only; rw [this]; exact hk
          rw [hsame i a e1 hdd] at e3; cases e3
          rw [hsame j b e2 (by rw [← hs.deact]; exact hdd)] at f3; cases f3
          exact hs.deact
        · rcases addSource_deact g' n ty u a' e3 with h1 | ⟨s, h1, h2, h3⟩
          · rcases addSource_deact g' n ty u b' f3 with h4 | ⟨s, h4, h5, h6⟩
            · rw [h1, h4]
            · rw [e2] at h4; cases h4
              rw [← hs.deact] at h6; exact absurd h6 hdd
          · rw [e1] at h1; cases h1; exact absurd h3 hdd
    · rw [oi g' hg, oj g' hg]; exact h.agree g'
  | _ => exact hrun.elim

/-- Records waiting in the next state were waiting before, or are the arrival. -/
theorem queue_mem_step {i : Input} (hi : Inv i) (o : Op) (hrun : Running o) {h : GHandle} {s' : Src}
    (hs' : (i.step o).1.slot h = some s') {x : DRec} (hx : x ∈ s'.queue) :
    (∃ s, i.slot h = some s ∧ x ∈ s.queue) ∨ ∃ d, o = .add h x.time x.iter d := by
  have hmv : ∀ f : Src → Src × List DRec × Bool, ∀ oc, (∀ s ∈ i.srcs, Consumes oc s (f s)) → (i.moved f).slot h = some s' →
      ∃ s, i.slot h = some s ∧ x ∈ s.queue := by
    intro f oc hf hm
    rw [moved_slot hf] at hm
    cases hs : i.slot h with
    | none => rw [hs] at hm; cases hm
    | some s =>
      rw [hs] at hm; cases hm
      refine ⟨s, rfl, ?_⟩
      rw [(hf s (slot_some hs).1).split]
      exact List.mem_append.2 (.inr hx)
  cases o with
  | add g t it d =>
    simp only [step] at hs'
    cases hb : (i.addData g t it d).2
    · rw [addData_false hb] at hs'; exact .inl ⟨s', hs', hx⟩
    · obtain ⟨b, s, hd, e1, _, _, e2, e3, _⟩ := addData_true hi hb
      by_cases hg : h = g
      · subst hg
        rw [e2] at hs'; cases hs'
        rcases mem_insertRec.1 hx with h1 | h1
        · right; exact ⟨d, by rw [h1]⟩
        · exact .inl ⟨s, e1, h1⟩
      · rw [e3 h hg] at hs'; exact .inl ⟨s', hs', hx⟩
  | upTo T =>
    simp only [step, updateTimeUpTo_eq] at hs'
    exact .inl (hmv _ _ (fun s _ => consumes_upTo _ _ s) hs')
  | inclusive T =>
    simp only [step, updateTimeInclusive_eq] at hs'
    exact .inl (hmv _ _ (fun s _ => consumes_inclusive _ _ s) hs')
  | addSource g n ty u =>
    simp only [step] at hs'
    obtain ⟨_, e1, e2, e3, _⟩ := addSource_facts hi g n ty u
    by_cases hg : h = g
    · subst hg
      cases hs : i.slot h with
      | none =>
        obtain ⟨s2, f1, f2, _⟩ := e3 hs
        rw [f1] at hs'; cases hs'; rw [f2] at hx; cases hx
      | some s =>
        obtain ⟨s2, f1, f2, _⟩ := e2 s hs
        rw [f1] at hs'; cases hs'; rw [f2] at hx; exact .inl ⟨s, rfl, hx⟩
    · rw [e1 h hg] at hs'; exact .inl ⟨s', hs', hx⟩
  | _ => exact hrun.elim

theorem sim_run {i j : Input} (h : Sim i j) (ops : List Op) (hrun : ∀ o ∈ ops, Running o) (hord : InOrder ops)
    (hq : ∀ g t it d, Op.add g t it d ∈ ops → ∀ s, j.slot g = some s → ∀ x ∈ s.queue, x.time < t ∨ (x.time = t ∧ x.iter ≤ it)) :
    Sim (i.run ops) (j.run ops) := by
  induction ops generalizing i j with
  | nil => exact h
  | cons o os ih =>
    have hp := List.pairwise_cons.1 hord
    have h1 := sim_step h o (hrun o (by simp)) (fun g t it d e => hq g t it d (by rw [e]; simp))
    refine ih h1 (fun o' ho' => hrun o' (by simp [ho'])) hp.2 ?_
    intro g t it d hmem s hs x hx
    rcases queue_mem_step h.invJ o (hrun o (by simp)) hs hx with ⟨s0, e, hx0⟩ | ⟨d0, e⟩
    · exact hq g t it d (by simp [hmem]) s0 e x hx0
    · exact hp.1 _ hmem g x.time x.iter d0 t it d e rfl

/-- **C18.** Change filtering never alters what an input shows: for every history of arrivals (each source in order),
time updates and new connections, an input that drops repeated values shows, for every source, the same bytes as one
that keeps them all. -/
theorem C18_change_filter_transparent (i : Input) (hs : i.srcs = []) (hq : i.queued = 0) (hg : i.gap ≤ 0) (ops : List Op)
    (hrun : ∀ o ∈ ops, Running o) (hord : InOrder ops) (h : GHandle) :
    (({ i with onlyChange := true } : Input).run ops).shown h = (({ i with onlyChange := false } : Input).run ops).shown h := by
  have h0 : Sim { i with onlyChange := true } { i with onlyChange := false } := by
    refine ⟨fresh_inv _ hs hq, fresh_inv _ hs hq, rfl, rfl, hg, hg, ?_⟩
    intro g; left; simp [slot, hs]
  have := sim_run h0 ops hrun hord (by intro g t it d _ s hs'; simp [slot, hs] at hs')
  unfold shown
  rcases this.agree h with ⟨e1, e2⟩ | ⟨a, b, e1, e2, hsame⟩
  · rw [e1, e2]
  · rw [e1, e2]; exact hsame.cur

/-- The in-order hypothesis is needed: a repeated value dropped before an older, different one arrives is missed. -/
theorem C18_out_of_order_counterexample :
    let ops : List Op := [.addSource ⟨200000, 1⟩ "a" "" "", .add ⟨200000, 1⟩ 1 0 (some [1]), .add ⟨200000, 1⟩ 3 0 (some [1]),
      .add ⟨200000, 1⟩ 2 0 (some [2]), .inclusive 3]
    (({ onlyChange := true } : Input).run ops).shown ⟨200000, 1⟩ = some [2] ∧
    (({ onlyChange := false } : Input).run ops).shown ⟨200000, 1⟩ = some [1] := by
  decide

/-- **C18.** With change filtering on, a time update reports a change exactly when the bytes shown for some source
changed. -/
theorem C18_reported_iff_changed (i : Input) (hi : Inv i) (hoc : i.onlyChange = true) (o : Op)
    (ho : (∃ T, o = .upTo T) ∨ (∃ T, o = .inclusive T) ∨ ∃ T, o = .nextIteration T) :
    (i.step o).2 = true ↔ ∃ h, (i.step o).1.shown h ≠ i.shown h := by
  have key : ∀ f : Src → Src × List DRec × Bool, (∀ s, Consumes true s (f s)) →
      (i.srcs.any (fun s => (f s).2.2) = true ↔ ∃ h, (i.moved f).shown h ≠ i.shown h) := by
    intro f hf
    have hsl : ∀ h, (i.moved f).shown h = (i.slot h).bind (fun s => (f s).1.cur) := by
      intro h; unfold shown; rw [moved_slot (fun s _ => hf s)]; cases i.slot h <;> rfl
    rw [List.any_eq_true]
    constructor
    · rintro ⟨s, hs, h⟩
      refine ⟨s.handle, ?_⟩
      rw [hsl]
      unfold shown
      have hf' : i.slot s.handle = some s := find_of_mem hi.nodup hs
      rw [hf']
      exact (hf s).reported.1 h
    · rintro ⟨h, hne⟩
      rw [hsl] at hne
      unfold shown at hne
      cases hs : i.slot h with
      | none => rw [hs] at hne; exact absurd rfl hne
      | some s =>
        rw [hs] at hne
        exact ⟨s, (slot_some hs).1, (hf s).reported.2 hne⟩
  rcases ho with ⟨T, rfl⟩ | ⟨T, rfl⟩ | ⟨T, rfl⟩
  · simp only [step, updateTimeUpTo_eq, hoc]; exact key _ (fun s => consumes_upTo _ _ s)
  · simp only [step, updateTimeInclusive_eq, hoc]; exact key _ (fun s => consumes_inclusive _ _ s)
  · simp only [step, updateTimeNextIteration_eq, hoc]; exact key _ (fun s => srcNextIter_consumes _ _ s)

/-! ## Minimum time gap -/

/-- The last accepted stamp of a source is remembered (change filtering off). -/
def GapInv (i : Input) (h : GHandle) (A : List DRec) : Prop :=
  A.Pairwise (fun a b => i.gap ≤ b.time - a.time) ∧
  (i.slot h = none → A = []) ∧
  (∀ s, i.slot h = some s → lastTime s = A.getLast?.map (·.time)) ∧
  (∀ s, i.slot h = some s → ∀ x ∈ s.queue, x ∈ A)

/-- Arrivals, every kind of time update, new sources. -/
def Moving (o : Op) : Prop :=
  match o with
  | .add .. | .upTo _ | .inclusive _ | .nextIteration _ | .addSource .. => True
  | _ => False

theorem lastTime_move {s : Src} {r : Src × List DRec × Bool} (h : Consumes false s r) : lastTime r.1 = lastTime s := by
  cases hl : r.2.1.getLast? with
  | none => rw [(h.keep (List.getLast?_eq_none_iff.1 hl)).1]
  | some u =>
    unfold lastTime
    rw [h.split, List.getLast?_append, hl, h.cur hl, h.curTime hl]
    cases r.1.queue.getLast? <;> rfl

theorem gap_step {i : Input} (hi : Inv i) (hoc : i.onlyChange = false) (hg : 0 < i.gap) {h : GHandle} {A : List DRec}
    (hA : GapInv i h A) (o : Op) (hm : Moving o)
    (hord : ∀ t it d, o = .add h t it d → ∀ x ∈ A, x.time < t ∨ (x.time = t ∧ x.iter ≤ it)) :
    GapInv (i.step o).1 h (A ++ accepted i h [o]) ∧ (i.step o).1.onlyChange = false ∧ (i.step o).1.gap = i.gap := by
  have hmv : ∀ f : Src → Src × List DRec × Bool, (∀ s ∈ i.srcs, Consumes false s (f s)) → GapInv (i.moved f) h A := by
    intro f hf
    refine ⟨hA.1, ?_, ?_, ?_⟩
    · intro hn; rw [moved_slot hf] at hn
      cases hs : i.slot h with
      | none => exact hA.2.1 hs
      | some s => rw [hs] at hn; cases hn
    · intro s' hs'; rw [moved_slot hf] at hs'
      cases hs : i.slot h with
      | none => rw [hs] at hs'; cases hs'
      | some s =>
        rw [hs] at hs'; cases hs'
        rw [lastTime_move (hf s (slot_some hs).1)]; exact hA.2.2.1 s hs
    · intro s' hs' x hx; rw [moved_slot hf] at hs'
      cases hs : i.slot h with
      | none => rw [hs] at hs'; cases hs'
      | some s =>
        rw [hs] at hs'; cases hs'
        refine hA.2.2.2 s hs x ?_
        rw [(hf s (slot_some hs).1).split]
        exact List.mem_append.2 (.inr hx)
  cases o with
  | add g t it d =>
    have hkeep : ∀ (k : Input), (k.addData g t it d).1.onlyChange = k.onlyChange ∧ (k.addData g t it d).1.gap = k.gap := by
      intro k; unfold addData; repeat' split
      all_goals exact ⟨rfl, rfl⟩
    refine ⟨?_, (hkeep i).1.trans hoc, (hkeep i).2⟩
    have hgap : (i.step (.add g t it d)).1.gap = i.gap := (hkeep i).2
    cases hb : (i.addData g t it d).2
    · have hacc : accepted i h [.add g t it d] = [] := by
        cases d with
        | none => simp [accepted]
        | some d => simp [accepted, step, hb]
      rw [hacc, List.append_nil]
      simp only [step]; rw [addData_false hb]; exact hA
    · obtain ⟨b, s, hd, hs, _, hen, hs', hoth, _⟩ := addData_true hi hb
      subst hd
      by_cases hh : g = h
      · subst hh
        have hacc : accepted i g [.add g t it (some b)] = [⟨t, it, b⟩] := by simp [accepted, step, hb]
        rw [hacc]
        have hle : ∀ x ∈ s.queue, Le x ⟨t, it, b⟩ := fun x hx => le_iff.2 (hord t it (some b) rfl x (hA.2.2.2 s hs x hx))
        -- the gap to the last accepted value
        have hlast : ∀ l, A.getLast? = some l → i.gap ≤ t - l.time := by
          intro l hl
          have hlt : lastTime s = some l.time := by rw [hA.2.2.1 s hs, hl]; rfl
          rw [enqueue_inorder i s _ hle] at hen
          have hld : ∃ c, lastData s = some c := by
            unfold lastTime at hlt; unfold lastData
            cases hq : s.queue.getLast? with
            | some x => exact ⟨_, rfl⟩
            | none =>
              rw [hq] at hlt
              cases hc : s.cur with
              | none => rw [hc] at hlt; cases hlt
              | some c => exact ⟨c, rfl⟩
          obtain ⟨c, hc⟩ := hld
          rw [hlt, hc] at hen
          dsimp only at hen
          split at hen
          · cases hen
          · rename_i hr
            unfold rejects at hr
            rw [hoc] at hr
            simp at hr
            have := hr hg; omega
        refine ⟨?_, ?_, ?_, ?_⟩
        · rw [hgap]
          rw [List.pairwise_append]
          refine ⟨hA.1, by simp, ?_⟩
          intro a ha b' hb'
          simp at hb'; subst hb'
          cases hl : A.getLast? with
          | none => rw [List.getLast?_eq_none_iff.1 hl] at ha; cases ha
          | some l =>
            have h1 := hlast l hl
            obtain ⟨pre, hpre⟩ := List.getLast?_eq_some_iff.1 hl
            rw [hpre] at ha
            have hpw := hA.1
            rw [hpre] at hpw
            rcases List.mem_append.1 ha with ha | ha
            · have := (List.pairwise_append.1 hpw).2.2 a ha l (by simp)
              dsimp only; omega
            · simp at ha; subst ha; exact h1
        · intro hn; simp only [step] at hn; rw [hs'] at hn; cases hn
        · intro x hx; simp only [step] at hx; rw [hs'] at hx; cases hx
          unfold lastTime
          dsimp only
          rw [insertRec_last hle]; simp
        · intro x hx y hy; simp only [step] at hx; rw [hs'] at hx; cases hx
          rcases mem_insertRec.1 hy with rfl | hy
          · simp
          · exact List.mem_append.2 (.inl (hA.2.2.2 s hs y hy))
      · have hacc : accepted i h [.add g t it (some b)] = [] := by simp [accepted, hh]
        rw [hacc, List.append_nil]
        have hsl : (i.step (.add g t it (some b))).1.slot h = i.slot h := hoth h (fun x => hh x.symm)
        refine ⟨by rw [hgap]; exact hA.1, by rw [hsl]; exact hA.2.1, by rw [hsl]; exact hA.2.2.1, by rw [hsl]; exact hA.2.2.2⟩
  | upTo T =>
    rw [show accepted i h [.upTo T] = [] from rfl, List.append_nil]
    simp only [step, updateTimeUpTo_eq]
    exact ⟨hmv _ (fun s _ => by rw [hoc]; exact consumes_upTo _ _ s), hoc, rfl⟩
  | inclusive T =>
    rw [show accepted i h [.inclusive T] = [] from rfl, List.append_nil]
    simp only [step, updateTimeInclusive_eq]
    exact ⟨hmv _ (fun s _ => by rw [hoc]; exact consumes_inclusive _ _ s), hoc, rfl⟩
  | nextIteration T =>
    rw [show accepted i h [.nextIteration T] = [] from rfl, List.append_nil]
    simp only [step, updateTimeNextIteration_eq]
    exact ⟨hmv _ (fun s _ => by rw [hoc]; exact srcNextIter_consumes _ _ s), hoc, rfl⟩
  | addSource g n ty u =>
    rw [show accepted i h [.addSource g n ty u] = [] from rfl, List.append_nil]
    obtain ⟨_, e1, e2, e3, e4, e5⟩ := addSource_facts hi g n ty u
    simp only [step]
    refine ⟨⟨by rw [e5]; exact hA.1, ?_, ?_, ?_⟩, e4.trans hoc, e5⟩
    all_goals
      by_cases hh : h = g
      · subst hh
        cases hs : i.slot h with
        | none =>
          obtain ⟨s', f1, f2, f3, _⟩ := e3 hs
          have hnil := hA.2.1 hs
          subst hnil
          first
          | (intro _; rfl)
          | (intro x hx y hy; rw [f1] at hx; cases hx; rw [f2] at hy; cases hy)
          | (intro x hx; rw [f1] at hx; cases hx; unfold lastTime; rw [f2, f3]; rfl)
        | some s =>
          obtain ⟨s', f1, f2, f3, f4⟩ := e2 s hs
          first
          | (intro hn; rw [f1] at hn; cases hn; done)
          | (intro x hx y hy; rw [f1] at hx; cases hx; rw [f2] at hy; exact hA.2.2.2 s hs y hy)
          | (intro x hx; rw [f1] at hx; cases hx
             have : lastTime s' = lastTime s := by unfold lastTime; rw [f2, f3, f4]
             rw [this]; exact hA.2.2.1 s hs)
      · rw [e1 h hh]
        first | exact hA.2.1 | exact hA.2.2.1 | exact hA.2.2.2
  | _ => exact hm.elim

theorem gap_run {i : Input} (hi : Inv i) (hoc : i.onlyChange = false) (hg : 0 < i.gap) {h : GHandle} {A : List DRec}
    (hA : GapInv i h A) (ops : List Op) (hm : ∀ o ∈ ops, Moving o) (hord : InOrder ops)
    (hbefore : ∀ t it d, Op.add h t it d ∈ ops → ∀ x ∈ A, x.time < t ∨ (x.time = t ∧ x.iter ≤ it)) :
    (A ++ accepted i h ops).Pairwise (fun a b => i.gap ≤ b.time - a.time) := by
  induction ops generalizing i A with
  | nil => simpa [accepted] using hA.1
  | cons o os ih =>
    have hp := List.pairwise_cons.1 hord
    obtain ⟨h1, h2, h3⟩ := gap_step hi hoc hg hA o (hm o (by simp)) (fun t it d e => hbefore t it d (by rw [e]; simp))
    have := ih (step_inv hi o) h2 (by rw [h3]; exact hg) h1 (fun o' ho' => hm o' (by simp [ho'])) hp.2 (by
      intro t it d hmem x hx
      rcases List.mem_append.1 hx with hx | hx
      · exact hbefore t it d (by simp [hmem]) x hx
      · cases o with
        | add g t' it' d' =>
          cases d' with
          | none => simp [accepted] at hx
          | some b =>
            simp only [accepted, List.append_nil] at hx
            split at hx
            · rename_i hc
              simp at hx; subst hx
              obtain ⟨rfl, _⟩ := hc
              exact hp.1 _ hmem _ t' it' (some b) t it d rfl rfl
            · cases hx
        | _ => simp [accepted] at hx)
    rw [h3] at this
    rw [accepted_cons, ← List.append_assoc]
    exact this

/-- **C18.** With a minimum time gap (and change filtering off), any two accepted values of one source are at least
the gap apart, for every history in which the source's values arrive in order. -/
theorem C18_min_gap (i : Input) (hs : i.srcs = []) (hq : i.queued = 0) (hoc : i.onlyChange = false) (hg : 0 < i.gap)
    (ops : List Op) (hm : ∀ o ∈ ops, Moving o) (hord : InOrder ops) (h : GHandle) :
    (accepted i h ops).Pairwise (fun a b => i.gap ≤ b.time - a.time) := by
  have h0 : GapInv i h [] := by
    refine ⟨List.Pairwise.nil, fun _ => rfl, ?_, ?_⟩ <;> simp [slot, hs]
  have := gap_run (fresh_inv i hs hq) hoc hg h0 ops hm hord (by intro t it d _ x hx; cases hx)
  simpa using this

/-- With both filters on, the gap is measured from the wrong value after a value returns to its previous bytes within
one time step: values at 20 and 21 are both accepted although the gap is 10. -/
theorem C18_gap_with_change_filter_counterexample :
    let i : Input := { onlyChange := true, gap := 10 }
    let ops : List Op := [.addSource ⟨200000, 1⟩ "a" "" "", .add ⟨200000, 1⟩ 0 0 (some [1]), .inclusive 0,
      .add ⟨200000, 1⟩ 10 0 (some [2]), .add ⟨200000, 1⟩ 20 0 (some [1]), .inclusive 20, .add ⟨200000, 1⟩ 21 0 (some [3])]
    (accepted i ⟨200000, 1⟩ ops).map (·.time) = [0, 10, 20, 21] := by
  decide

/-- A non-trivial history meeting the hypotheses of the filter theorems. -/
example :
    let ops : List Op := [.addSource ⟨200000, 1⟩ "a" "" "", .add ⟨200000, 1⟩ 1 0 (some [1]), .add ⟨200000, 1⟩ 2 0 (some [1]),
      .upTo 2, .add ⟨200000, 1⟩ 12 0 (some [2]), .inclusive 12]
    InOrder ops ∧ (∀ o ∈ ops, Running o) ∧ (accepted { onlyChange := true } ⟨200000, 1⟩ ops).length = 2 ∧
      (accepted { gap := 10 } ⟨200000, 1⟩ ops).length = 2 ∧ (({ onlyChange := true } : Input).run ops).shown ⟨200000, 1⟩ = some [2] := by
  refine ⟨?_, ?_, by decide, by decide, by decide⟩
  · unfold InOrder
    simp only [List.pairwise_cons, List.mem_cons, List.not_mem_nil, or_false]
    refine ⟨?_, ?_, ?_, ?_, ?_, ?_, List.Pairwise.nil⟩
    all_goals
      intro o' ho' h t it d t' it' d' e e'
      subst e'
      cases e
    all_goals simp at ho'
    · rcases ho' with ⟨_, rfl, rfl, _⟩ | ⟨_, rfl, rfl, _⟩ <;> omega
    · rcases ho' with ⟨_, rfl, rfl, _⟩; omega
  · intro o ho
    simp at ho
    rcases ho with h | h | h | h | h | h <;> subst h <;> exact trivial

end Verif.Input
