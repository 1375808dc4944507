import Verif.Lemmas.InputInv
/-!
# Input values: properties C14, C15, C16, C17

Specification.  A history is a list of the calls a federate makes on an input (`Op`).  `accepted` lists the values
of one source whose arrival call returned `true`, in arrival order; `covered` says that a time has already been
passed by some time update of the history; `IsLatest` picks the value with the greatest (time, iteration), the last
to arrive among equals.
-/
namespace Verif.Input

/-! ## Specification -/

/-- Values of source `h` accepted during the history, in arrival order. -/
def accepted (i : Input) (h : GHandle) : List Op → List DRec
  | [] => []
  | .add h' t it (some d) :: os =>
    (if h' = h ∧ (i.step (.add h' t it (some d))).2 = true then [⟨t, it, d⟩] else []) ++
      accepted (i.step (.add h' t it (some d))).1 h os
  | o :: os => accepted (i.step o).1 h os

/-- The time update `o` makes values stamped `t` current. -/
def passes (o : Op) (t : Time) : Bool :=
  match o with
  | .upTo T => decide (t < T)
  | .inclusive T => decide (t ≤ T)
  | _ => false

/-- Some time update of the history has passed `t`. -/
def covered (ops : List Op) (t : Time) : Bool := ops.any (passes · t)

/-- No value arrives stamped with a time the input has already passed. -/
def Timely (ops : List Op) : Prop :=
  ∀ pre h t it d post, ops = pre ++ Op.add h t it d :: post → covered pre t = false

/-- The calls of a running connection: arrivals, exclusive and inclusive time updates, new sources, options. -/
def Plain (o : Op) : Prop :=
  match o with
  | .add .. | .upTo _ | .inclusive _ | .addSource .. | .set .. => True
  | _ => False

/-- `r` has the greatest (time, iteration) of `l`, and is the last such element. -/
def IsLatest (l : List DRec) (r : DRec) : Prop :=
  ∃ pre post, l = pre ++ r :: post ∧
    (∀ x ∈ pre, x.time < r.time ∨ (x.time = r.time ∧ x.iter ≤ r.iter)) ∧
    (∀ x ∈ post, x.time < r.time ∨ (x.time = r.time ∧ x.iter < r.iter))

/-- The value the input shows for source `h` (what `getAllValues` returns in that source's place). -/
def shown (i : Input) (h : GHandle) : Option Bytes := (i.slot h).bind (·.cur)

/-! ## Stable ordering -/

/-- Stable sort by repeated insertion. -/
def stab (l : List DRec) : List DRec := l.foldl (fun q r => insertRec r q) []

theorem stab_snoc (l : List DRec) (r : DRec) : stab (l ++ [r]) = insertRec r (stab l) := by
  unfold stab; rw [List.foldl_append]; rfl

private theorem snoc_ind {P : List DRec → Prop} (h0 : P []) (h1 : ∀ l r, P l → P (l ++ [r])) (l : List DRec) : P l := by
  have : ∀ l : List DRec, P l.reverse := by
    intro l
    induction l with
    | nil => exact h0
    | cons a as ih => rw [List.reverse_cons]; exact h1 _ _ ih
  rw [← List.reverse_reverse l]; exact this _

theorem stab_sorted (l : List DRec) : Sorted (stab l) :=
  snoc_ind (P := fun l => Sorted (stab l)) List.Pairwise.nil (fun l r ih => by rw [stab_snoc]; exact insertRec_sorted ih) l

theorem stab_perm (l : List DRec) : (stab l).Perm l :=
  snoc_ind (P := fun l => (stab l).Perm l) (List.Perm.refl _) (fun l r ih => by
    rw [stab_snoc]
    exact ((insertRec_perm r _).trans (ih.cons r)).trans (List.perm_append_singleton r l).symm) l

theorem stab_filter (p : DRec → Bool) (l : List DRec) : (stab l).filter p = stab (l.filter p) :=
  snoc_ind (P := fun l => (stab l).filter p = stab (l.filter p)) rfl (fun l r ih => by
    rw [stab_snoc, insertRec_filter p (stab_sorted l), ih, List.filter_append]
    cases hp : p r
    · simp [hp]
    · simp only [if_true, List.filter_cons, hp, List.filter_nil]
      rw [stab_snoc]) l

theorem insertRec_getLast? {r b : DRec} {l : List DRec} (hs : Sorted l) (h : l.getLast? = some b) :
    (insertRec r l).getLast? = some (if recLt r b then b else r) := by
  cases hlt : recLt r b
  · rw [insertRec_last (fun x hx => ?_)]
    · simp
    · have h1 := getLast?_le hs h x hx
      exact h1.trans hlt
  · simp only [if_true]
    obtain ⟨pre, rfl⟩ := List.getLast?_eq_some_iff.1 h
    clear hs h
    induction pre with
    | nil => rw [List.nil_append, insertRec_cons, if_pos hlt]; rfl
    | cons e es ih =>
      rw [List.cons_append, insertRec_cons]
      split
      · rw [List.getLast?_cons_cons, List.getLast?_cons]; simp
      · rw [List.getLast?_cons, ih]; rfl

theorem stab_latest (l : List DRec) : ∀ b, (stab l).getLast? = some b → IsLatest l b :=
  snoc_ind (P := fun l => ∀ b, (stab l).getLast? = some b → IsLatest l b) (by intro b h; cases h) (fun l r ih b hb => by
    rw [stab_snoc] at hb
    cases hl : (stab l).getLast? with
    | none =>
      have h1 : stab l = [] := List.getLast?_eq_none_iff.1 hl
      have h2 : l = [] := List.Perm.eq_nil ((h1 ▸ stab_perm l).symm)
      rw [h1] at hb
      simp [insertRec_nil] at hb
      exact ⟨[], [], by simp [h2, hb], by simp, by simp⟩
    | some b0 =>
      rw [insertRec_getLast? (stab_sorted l) hl] at hb
      have hall : ∀ x ∈ l, Le x b0 := fun x hx => getLast?_le (stab_sorted l) hl x ((stab_perm l).mem_iff.2 hx)
      cases hlt : recLt r b0
      · rw [hlt] at hb; simp at hb
        refine ⟨l, [], by rw [hb], ?_, by simp⟩
        intro x hx
        have := (hall x hx).trans hlt
        rw [hb] at this
        exact le_iff.1 this
      · rw [hlt] at hb; simp at hb
        subst hb
        obtain ⟨pre, post, e, h1, h2⟩ := ih _ hl
        refine ⟨pre, post ++ [r], by rw [e]; simp, h1, ?_⟩
        intro x hx
        rcases List.mem_append.1 hx with hx | hx
        · exact h2 x hx
        · simp at hx; rw [hx]; exact recLt_iff.1 hlt) l

theorem isLatest_mem {l : List DRec} {r : DRec} (h : IsLatest l r) : r ∈ l := by
  obtain ⟨pre, post, rfl, _⟩ := h; simp

theorem isLatest_unique {l : List DRec} {a b : DRec} (ha : IsLatest l a) (hb : IsLatest l b) : a = b := by
  obtain ⟨p1, q1, e1, h1, h1'⟩ := ha
  obtain ⟨p2, q2, e2, h2, h2'⟩ := hb
  rw [e1] at e2
  rcases List.append_eq_append_iff.1 e2 with ⟨c, hc1, hc2⟩ | ⟨c, hc1, hc2⟩
  · cases c with
    | nil => simp at hc2; exact hc2.1
    | cons x xs =>
      simp only [List.cons_append, List.cons.injEq] at hc2
      have hb' : b ∈ q1 := by rw [hc2.2]; simp
      have ha' : a ∈ p2 := by rw [hc1, ← hc2.1]; simp
      have := h1' b hb'; have := h2 a ha'; omega
  · cases c with
    | nil => simp at hc2; exact hc2.1.symm
    | cons x xs =>
      simp only [List.cons_append, List.cons.injEq] at hc2
      have hb' : a ∈ q2 := by rw [hc2.2]; simp
      have ha' : b ∈ p1 := by rw [hc1, ← hc2.1]; simp
      have := h2' a hb'; have := h1 b ha'; omega

theorem isLatest_exists {l : List DRec} (h : l ≠ []) : ∃ r, IsLatest l r := by
  cases hl : (stab l).getLast? with
  | none =>
    have h1 : stab l = [] := List.getLast?_eq_none_iff.1 hl
    exact absurd (List.Perm.eq_nil ((h1 ▸ stab_perm l).symm)) h
  | some b => exact ⟨b, stab_latest l b hl⟩

/-- The latest among the newly passed values is the latest among all passed values. -/
theorem isLatest_widen {A : List DRec} {p q : DRec → Bool} {r : DRec} (h : IsLatest (A.filter q) r)
    (hsub : ∀ x, q x = true → p x = true) (hlt : ∀ x ∈ A, p x = true → q x = false → x.time < r.time) :
    IsLatest (A.filter p) r := by
  obtain ⟨pre, post, e, h1, h2⟩ := h
  obtain ⟨A1, A2, rfl, e1, e2⟩ := List.filter_eq_append_iff.1 e
  obtain ⟨B1, B2, rfl, e3, e4, e5⟩ := List.filter_eq_cons_iff.1 e2
  refine ⟨A1.filter p ++ B1.filter p, B2.filter p, ?_, ?_, ?_⟩
  · simp [List.filter_append, hsub r e4]
  · intro x hx
    have hm : x ∈ A1 ++ B1 ∧ p x = true := by
      rcases List.mem_append.1 hx with hx | hx <;> simp [List.mem_filter] at hx <;> simp [hx]
    cases hq : q x
    · left; refine hlt x ?_ hm.2 hq
      rcases List.mem_append.1 hm.1 with h | h <;> simp [h]
    · rcases List.mem_append.1 hm.1 with h | h
      · exact h1 x (by rw [← e1]; simp [h, hq])
      · exact absurd hq (by simpa using e3 x h)
  · intro x hx
    have hm := List.mem_filter.1 hx
    cases hq : q x
    · left; exact hlt x (by simp [hm.1]) hm.2 hq
    · exact h2 x (by rw [← e5]; simp [hm.1, hq])

/-! ## Tracking a history -/

/-- The state of source `h` after accepting `A`, with the times in `C` passed. -/
structure Track (i : Input) (h : GHandle) (A : List DRec) (C : Time → Bool) : Prop where
  down : ∀ t t', t ≤ t' → C t' = true → C t = true
  absent : i.slot h = none → A = []
  queue : ∀ s, i.slot h = some s → s.queue = stab (A.filter (fun r => !C r.time))
  empty : ∀ s, i.slot h = some s → A.filter (fun r => C r.time) = [] → s.cur = none
  cur : ∀ s r, i.slot h = some s → IsLatest (A.filter (fun r => C r.time)) r → s.cur = some r.data

theorem track_move {i : Input} {h : GHandle} {A : List DRec} {C : Time → Bool} (ht : Track i h A C)
    (p : Time → Bool) (hp : ∀ t t', t ≤ t' → p t' = true → p t = true) (oc : Bool) :
    Track (i.moved (srcMove oc (fun r => p r.time))) h A (fun t => C t || p t) := by
  have hcons : ∀ s ∈ i.srcs, Consumes oc s (srcMove oc (fun r => p r.time) s) := fun s _ => srcMove_consumes _ _ s
  have hslot := moved_slot hcons h
  have hold : ∀ s, i.slot h = some s →
      s.queue.takeWhile (fun r => p r.time) = stab (A.filter (fun r => !C r.time && p r.time)) ∧
      s.queue.dropWhile (fun r => p r.time) = stab (A.filter (fun r => !(C r.time || p r.time))) := by
    intro s hs
    have hq := ht.queue s hs
    have hso : Sorted s.queue := by rw [hq]; exact stab_sorted _
    obtain ⟨h1, h2⟩ := takeWhile_eq_filter (p := fun r => p r.time) hso (fun a b hab hb => hp _ _ hab.time hb)
    rw [h1, h2, hq, stab_filter, stab_filter, List.filter_filter, List.filter_filter]
    constructor
    · congr 1; congr 1; funext r; exact Bool.and_comm _ _
    · congr 1; congr 1; funext r; cases C r.time <;> cases p r.time <;> rfl
  have hnew : ∀ s, i.slot h = some s → (srcMove oc (fun r => p r.time) s).1.queue = s.queue.dropWhile (fun r => p r.time) := by
    intro s hs
    have hc := (srcMove_consumes oc (fun r => p r.time) s).split
    have ht2 := List.takeWhile_append_dropWhile (p := fun r : DRec => p r.time) (l := s.queue)
    unfold srcMove at *
    split at hc
    · rename_i hn
      simp only
      have := List.getLast?_eq_none_iff.1 hn
      rw [this] at ht2
      simpa using ht2.symm
    · rename_i x hn; simp only
  refine ⟨?_, ?_, ?_, ?_, ?_⟩
  · intro t t' hle h'
    rw [Bool.or_eq_true] at *
    rcases h' with h' | h'
    · exact .inl (ht.down t t' hle h')
    · exact .inr (hp t t' hle h')
  · intro hn; rw [hslot] at hn
    cases hs : i.slot h with
    | none => exact ht.absent hs
    | some s => rw [hs] at hn; cases hn
  · intro s' hs'
    rw [hslot] at hs'
    cases hs : i.slot h with
    | none => rw [hs] at hs'; cases hs'
    | some s =>
      rw [hs] at hs'; cases hs'
      rw [hnew s hs, (hold s hs).2]
  · intro s' hs' hemp
    rw [hslot] at hs'
    cases hs : i.slot h with
    | none => rw [hs] at hs'; cases hs'
    | some s =>
      rw [hs] at hs'; cases hs'
      have he1 : A.filter (fun r => C r.time) = [] := by
        rw [List.filter_eq_nil_iff] at *
        intro r hr hc; exact hemp r hr (by rw [hc]; rfl)
      have he2 : A.filter (fun r => !C r.time && p r.time) = [] := by
        rw [List.filter_eq_nil_iff] at *
        intro r hr hc
        rw [Bool.and_eq_true] at hc
        exact hemp r hr (by rw [hc.2, Bool.or_true])
      have hk := (srcMove_consumes oc (fun r => p r.time) s).keep
      have hz : (srcMove oc (fun r => p r.time) s).2.1 = [] := by
        have := (hold s hs).1
        rw [he2] at this
        unfold srcMove
        rw [this]; rfl
      dsimp only; rw [(hk hz).1]; exact ht.empty s hs he1
  · intro s' r hs' hlat
    rw [hslot] at hs'
    cases hs : i.slot h with
    | none => rw [hs] at hs'; cases hs'
    | some s =>
      rw [hs] at hs'; cases hs'
      have hc := srcMove_consumes oc (fun r => p r.time) s
      cases hl : (stab (A.filter (fun r => !C r.time && p r.time))).getLast? with
      | none =>
        have h1 : stab (A.filter (fun r => !C r.time && p r.time)) = [] := List.getLast?_eq_none_iff.1 hl
        have he2 : A.filter (fun r => !C r.time && p r.time) = [] := List.Perm.eq_nil ((h1 ▸ stab_perm _).symm)
        have hz : (srcMove oc (fun r => p r.time) s).2.1 = [] := by
          unfold srcMove; rw [(hold s hs).1, h1]; rfl
        dsimp only; rw [(hc.keep hz).1]
        have hsame : A.filter (fun r => C r.time || p r.time) = A.filter (fun r => C r.time) := by
          refine List.filter_congr (fun x hx => ?_)
          have := (List.filter_eq_nil_iff.1 he2) x hx
          cases hC : C x.time <;> cases hP : p x.time <;> simp_all
        rw [hsame] at hlat
        exact ht.cur s r hs hlat
      | some b =>
        have hb := stab_latest _ _ hl
        have hbm := List.mem_filter.1 (isLatest_mem hb)
        have hbC : C b.time = false := by have := hbm.2; cases hC : C b.time <;> simp_all
        have hw := isLatest_widen (p := fun r => C r.time || p r.time) hb
          (fun x hx => by rw [Bool.and_eq_true] at hx; rw [hx.2, Bool.or_true])
          (fun x _ hx hq => by
            have hCx : C x.time = true := by cases hC : C x.time <;> cases hP : p x.time <;> simp_all
            apply Classical.byContradiction
            intro hge
            rw [ht.down b.time x.time (by omega) hCx] at hbC; cases hbC)
        rw [isLatest_unique hlat hw]
        apply hc.cur
        unfold srcMove
        rw [(hold s hs).1]
        simp only [hl]

theorem track_step {i : Input} (hi : Inv i) {h : GHandle} {A : List DRec} {C : Time → Bool} (ht : Track i h A C)
    (o : Op) (hpl : Plain o) (hlate : ∀ h' t it d, o = .add h' t it d → C t = false) :
    Track (i.step o).1 h (A ++ accepted i h [o]) (fun t => C t || passes o t) := by
  cases o with
  | add h' t it d =>
    have hC : (fun t' => C t' || passes (.add h' t it d) t') = C := by funext x; simp [passes]
    rw [hC]
    cases hb : (i.addData h' t it d).2
    · have hacc : accepted i h [.add h' t it d] = [] := by
        cases d with
        | none => simp [accepted]
        | some d => simp [accepted, step, hb]
      rw [hacc, List.append_nil]
      simp only [step]; rw [addData_false hb]; exact ht
    · obtain ⟨b, s, hd, hs, _, _, hs', hoth, _⟩ := addData_true hi hb
      subst hd
      simp only [step]
      by_cases hh : h' = h
      · subst hh
        have hacc : accepted i h' [.add h' t it (some b)] = [⟨t, it, b⟩] := by simp [accepted, step, hb]
        rw [hacc]
        have hCt := hlate h' t it (some b) rfl
        have hf : (A ++ [(⟨t, it, b⟩ : DRec)]).filter (fun r => C r.time) = A.filter (fun r => C r.time) := by
          rw [List.filter_append]; simp [hCt]
        refine ⟨ht.down, ?_, ?_, ?_, ?_⟩
        · intro hn; rw [hs'] at hn; cases hn
        · intro x hx; rw [hs'] at hx; cases hx
          rw [List.filter_append]
          simp only [List.filter_cons, hCt, Bool.not_false, if_true, List.filter_nil]
          rw [stab_snoc, ← ht.queue s hs]
        · intro x hx hempty; rw [hs'] at hx; cases hx
          rw [hf] at hempty; exact ht.empty s hs hempty
        · intro x r hx hl; rw [hs'] at hx; cases hx
          rw [hf] at hl; exact ht.cur s r hs hl
      · have hacc : accepted i h [.add h' t it (some b)] = [] := by simp [accepted, hh]
        rw [hacc, List.append_nil]
        have hsl := hoth h (fun x => hh x.symm)
        exact ⟨ht.down, fun hn => ht.absent (by rw [← hsl]; exact hn), fun s hs => ht.queue s (by rw [← hsl]; exact hs),
          fun s hs => ht.empty s (by rw [← hsl]; exact hs), fun s r hs => ht.cur s r (by rw [← hsl]; exact hs)⟩
  | upTo T =>
    have hacc : accepted i h [.upTo T] = [] := rfl
    rw [hacc, List.append_nil]
    simp only [step, updateTimeUpTo_eq]
    have : srcUpTo i.onlyChange T = srcMove i.onlyChange (fun r => (fun t => decide (t < T)) r.time) := by
      funext s; exact srcUpTo_eq _ _ _
    rw [this]
    exact track_move ht (fun t => decide (t < T)) (fun t t' hle h' => by simp at *; omega) _
  | inclusive T =>
    have hacc : accepted i h [.inclusive T] = [] := rfl
    rw [hacc, List.append_nil]
    simp only [step, updateTimeInclusive_eq]
    have : srcInclusive i.onlyChange T = srcMove i.onlyChange (fun r => (fun t => decide (t ≤ T)) r.time) := by
      funext s; exact srcInclusive_eq _ _ _
    rw [this]
    exact track_move ht (fun t => decide (t ≤ T)) (fun t t' hle h' => by simp at *; omega) _
  | addSource h' n ty u =>
    have hC : (fun t' => C t' || passes (.addSource h' n ty u) t') = C := by funext x; simp [passes]
    have hacc : accepted i h [.addSource h' n ty u] = [] := rfl
    rw [hC, hacc, List.append_nil]
    obtain ⟨_, hoth, hsome, hnone, _⟩ := addSource_facts hi h' n ty u
    simp only [step]
    by_cases hh : h' = h
    · subst hh
      cases hs : i.slot h' with
      | some s =>
        obtain ⟨s', e1, e2, e3, _⟩ := hsome s hs
        refine ⟨ht.down, (by intro hn; rw [e1] at hn; cases hn), ?_, ?_, ?_⟩
        · intro x hx; rw [e1] at hx; cases hx; rw [e2]; exact ht.queue s hs
        · intro x hx; rw [e1] at hx; cases hx; rw [e3]; exact ht.empty s hs
        · intro x r hx; rw [e1] at hx; cases hx; rw [e3]; exact ht.cur s r hs
      | none =>
        obtain ⟨s', e1, e2, e3, _⟩ := hnone hs
        have hA := ht.absent hs
        subst hA
        refine ⟨ht.down, fun _ => rfl, ?_, ?_, ?_⟩
        · intro x hx; rw [e1] at hx; cases hx; rw [e2]; rfl
        · intro x hx _; rw [e1] at hx; cases hx; exact e3
        · intro x r hx hl; exact absurd (isLatest_mem hl) (by simp)
    · have hsl := hoth h (fun x => hh x.symm)
      exact ⟨ht.down, fun hn => ht.absent (by rw [← hsl]; exact hn), fun s hs => ht.queue s (by rw [← hsl]; exact hs),
        fun s hs => ht.empty s (by rw [← hsl]; exact hs), fun s r hs => ht.cur s r (by rw [← hsl]; exact hs)⟩
  | set o v =>
    have hC : (fun t' => C t' || passes (.set o v) t') = C := by funext x; simp [passes]
    have hacc : accepted i h [.set o v] = [] := rfl
    rw [hC, hacc, List.append_nil]
    have hsl : (i.setProperty o v).slot h = i.slot h := by unfold slot; rw [(setProperty_srcs i o v).1]
    simp only [step]
    exact ⟨ht.down, fun hn => ht.absent (by rw [← hsl]; exact hn), fun s hs => ht.queue s (by rw [← hsl]; exact hs),
      fun s hs => ht.empty s (by rw [← hsl]; exact hs), fun s r hs => ht.cur s r (by rw [← hsl]; exact hs)⟩
  | nextIteration _ => exact hpl.elim
  | remove _ _ => exact hpl.elim
  | removeNamed _ _ => exact hpl.elim
  | disconnect _ _ => exact hpl.elim
  | clear => exact hpl.elim

theorem accepted_cons (i : Input) (h : GHandle) (o : Op) (os : List Op) :
    accepted i h (o :: os) = accepted i h [o] ++ accepted (i.step o).1 h os := by
  cases o with
  | add h' t it d => cases d <;> simp [accepted]
  | _ => rfl

theorem track_run {i : Input} (hi : Inv i) {h : GHandle} {A : List DRec} {C : Time → Bool} (ht : Track i h A C)
    (ops : List Op) (hpl : ∀ o ∈ ops, Plain o)
    (hlate : ∀ pre h t it d post, ops = pre ++ Op.add h t it d :: post → (C t || covered pre t) = false) :
    Track (i.run ops) h (A ++ accepted i h ops) (fun t => C t || covered ops t) := by
  induction ops generalizing i A C with
  | nil =>
    have : (fun t => C t || covered [] t) = C := by funext t; simp [covered]
    rw [this]; simpa [accepted, run] using ht
  | cons o os ih =>
    have h1 := track_step hi ht o (hpl o (by simp)) (fun h' t it d e => by
      have := hlate [] h' t it d os (by rw [e]; rfl)
      simpa [covered] using this)
    have h2 := ih (step_inv hi o) h1 (fun o' ho' => hpl o' (by simp [ho'])) (fun pre h' t it d post e => by
      have := hlate (o :: pre) h' t it d post (by rw [e]; rfl)
      simpa [covered, Bool.or_assoc] using this)
    rw [accepted_cons, ← List.append_assoc]
    have : (fun t => C t || covered (o :: os) t) = (fun t => (C t || passes o t) || covered os t) := by
      funext t; simp [covered, Bool.or_assoc]
    rw [this]
    exact h2

theorem track_fresh (i : Input) (hs : i.srcs = []) (h : GHandle) : Track i h [] (fun _ => false) := by
  have : i.slot h = none := by simp [slot, hs]
  refine ⟨fun _ _ _ h => by simp at h, fun _ => rfl, ?_, ?_, ?_⟩ <;> simp [this]

theorem track_history (i : Input) (hs : i.srcs = []) (hq : i.queued = 0) (h : GHandle) (ops : List Op)
    (hpl : ∀ o ∈ ops, Plain o) (ht : Timely ops) :
    Track (i.run ops) h (accepted i h ops) (covered ops) := by
  have := track_run (fresh_inv i hs hq) (track_fresh i hs h) ops hpl (by
    intro pre h' t it d post e; simpa using ht pre h' t it d post e)
  simpa using this

/-! ## C14 -/

/-- **C14.** For every history of arrivals (in any order, from any sources), time updates, new sources and option
changes in which no value arrives already passed, the value shown for a source is the latest accepted one among those
whose time has been passed: greatest time, then iteration, then arrival.  It does not matter which filters are on. -/
theorem C14_value_is_latest (i : Input) (hs : i.srcs = []) (hq : i.queued = 0) (ops : List Op)
    (hpl : ∀ o ∈ ops, Plain o) (ht : Timely ops) (h : GHandle) (r : DRec)
    (hr : IsLatest ((accepted i h ops).filter (fun r => covered ops r.time)) r) :
    (i.run ops).shown h = some r.data := by
  have hT := track_history i hs hq h ops hpl ht
  unfold shown
  cases hsl : (i.run ops).slot h with
  | none =>
    have := isLatest_mem hr
    rw [hT.absent hsl] at this
    simp at this
  | some s => exact hT.cur s r hsl hr

/-- **C14.** While no accepted value of the source has been passed, no value is shown: nothing is shown early. -/
theorem C14_nothing_early (i : Input) (hs : i.srcs = []) (hq : i.queued = 0) (ops : List Op)
    (hpl : ∀ o ∈ ops, Plain o) (ht : Timely ops) (h : GHandle)
    (hno : ∀ r ∈ accepted i h ops, covered ops r.time = false) : (i.run ops).shown h = none := by
  have hT := track_history i hs hq h ops hpl ht
  unfold shown
  cases hsl : (i.run ops).slot h with
  | none => rfl
  | some s =>
    refine hT.empty s hsl ?_
    rw [List.filter_eq_nil_iff]
    intro r hr; rw [hno r hr]; simp

/-- **C14.** Every accepted value not yet passed is still waiting, none twice, and nothing else is waiting. -/
theorem C14_rest_stays_queued (i : Input) (hs : i.srcs = []) (hq : i.queued = 0) (ops : List Op)
    (hpl : ∀ o ∈ ops, Plain o) (ht : Timely ops) (h : GHandle) (s : Src) (hsl : (i.run ops).slot h = some s) :
    s.queue.Perm ((accepted i h ops).filter (fun r => !covered ops r.time)) := by
  have hT := track_history i hs hq h ops hpl ht
  rw [hT.queue s hsl]; exact stab_perm _

/-- **C14.** With change filtering and the minimum gap off, every value of a connected source is accepted. -/
theorem C14_accepts {i : Input} (h : GHandle) (t : Time) (it : Nat) (d : Bytes) (s : Src)
    (hsl : i.slot h = some s) (hd : t ≤ s.deact) (hoc : i.onlyChange = false) (hg : i.gap ≤ 0) :
    (i.addData h t it (some d)).2 = true := by
  have hrej : ∀ a b c e, i.rejects a b c e = false := by
    intro a b c e; unfold rejects; rw [hoc]; simp; omega
  have henq : ∀ r, ∃ q, i.enqueue s r = some q := by
    intro r; unfold enqueue; simp only [hrej]
    repeat' split
    all_goals simp_all
  have : ∀ l : List Src, l.find? (fun x => decide (x.handle = h)) = some s →
      ∃ l', i.addToSrcs h ⟨t, it, d⟩ l = some l' := by
    intro l
    induction l with
    | nil => intro h; cases h
    | cons a as ih =>
      intro hf
      unfold addToSrcs
      by_cases ha : a.handle = h
      · simp [ha] at hf
        subst hf
        obtain ⟨q, hq⟩ := henq ⟨t, it, d⟩
        simp only [ha, if_true, hq]
        rw [if_neg (by omega)]
        exact ⟨_, rfl⟩
      · simp only [ha, if_false]
        rw [List.find?_cons] at hf
        simp only [ha, decide_false] at hf
        obtain ⟨l', hl'⟩ := ih hf
        exact ⟨a :: l', by rw [hl']; rfl⟩
  obtain ⟨l', hl'⟩ := this i.srcs hsl
  simp only [addData, hl']

/-- A history in which values arrive out of order, from two sources, with an equal stamp and a later one. -/
def demoOps : List Op :=
  [.addSource ⟨200000, 1⟩ "a" "double" "V", .addSource ⟨200001, 1⟩ "b" "double" "V",
   .add ⟨200000, 1⟩ 30 0 (some [3]), .add ⟨200000, 1⟩ 10 0 (some [1]), .add ⟨200001, 1⟩ 20 0 (some [7]),
   .add ⟨200000, 1⟩ 20 1 (some [2]), .add ⟨200000, 1⟩ 20 0 (some [9]), .inclusive 20,
   .add ⟨200000, 1⟩ 25 0 (some [4]), .upTo 30]

/-- Executable form of `Timely`, used to exhibit histories that meet it. -/
def timelyCheck (seen : List Op) : List Op → Bool
  | [] => true
  | .add h t it d :: os => !covered seen t && timelyCheck (seen ++ [.add h t it d]) os
  | o :: os => timelyCheck (seen ++ [o]) os

theorem timelyCheck_sound (seen ops : List Op) (hc : timelyCheck seen ops = true) :
    ∀ pre h t it d post, ops = pre ++ Op.add h t it d :: post → covered (seen ++ pre) t = false := by
  induction ops generalizing seen with
  | nil => intro pre h t it d post e; simp at e
  | cons o os ih =>
    intro pre h t it d post e
    cases pre with
    | nil =>
      simp only [List.nil_append, List.cons.injEq] at e
      rw [e.1] at hc
      simp [timelyCheck] at hc
      simpa using hc.1
    | cons p ps =>
      simp only [List.cons_append, List.cons.injEq] at e
      have hc' : timelyCheck (seen ++ [o]) os = true := by
        cases o <;> simp [timelyCheck] at hc <;> simp [hc]
      have := ih (seen ++ [o]) hc' ps h t it d post e.2
      rw [← e.1]
      simpa using this

theorem timely_of_check {ops : List Op} (hc : timelyCheck [] ops = true) : Timely ops := by
  intro pre h t it d post e
  simpa using timelyCheck_sound [] ops hc pre h t it d post e

/-- The hypotheses of the C14 theorems hold of a real history, and the value shown is the expected one. -/
example : Timely demoOps ∧ (∀ o ∈ demoOps, Plain o) ∧ ((({} : Input).run demoOps).shown ⟨200000, 1⟩ = some [4]) ∧
    ((({} : Input).run demoOps).shown ⟨200001, 1⟩ = some [7]) ∧ ((({} : Input).run (demoOps.take 8)).shown ⟨200000, 1⟩ = some [2]) := by
  refine ⟨timely_of_check (by decide), ?_, by decide, by decide, by decide⟩
  intro o ho
  simp [demoOps] at ho
  rcases ho with h | h | h | h | h | h | h | h | h | h <;> subst h <;> exact trivial

/-- The next-iteration update shows nothing stamped after the new time and takes everything stamped before it,
whatever the iteration numbers. -/
theorem C14_next_iteration_bounds (oc : Bool) (T : Time) (s : Src) (hso : Sorted s.queue) :
    (∀ r ∈ (srcNextIter oc T s).2.1, r.time ≤ T) ∧ (∀ r ∈ (srcNextIter oc T s).1.queue, T ≤ r.time) ∧
    s.queue = (srcNextIter oc T s).2.1 ++ (srcNextIter oc T s).1.queue := by
  refine ⟨?_, ?_, (srcNextIter_consumes oc T s).split⟩
  all_goals
    unfold srcNextIter
    split
    · rename_i hq; simp [hq]
    · rename_i c cs hq
      have hso' : Sorted cs ∧ ∀ x ∈ cs, Le c x := by
        rw [hq] at hso; exact ⟨(List.pairwise_cons.1 hso).2, (List.pairwise_cons.1 hso).1⟩
      split
      · intro r hr
        first
        | (exfalso; simp at hr; done)
        | (rw [hq] at hr
           rcases List.mem_cons.1 hr with rfl | hr
           · omega
           · have := (hso'.2 r hr).time; omega)
      · rename_i hc
        rw [advance_eq]
        dsimp only
        have hcs := List.takeWhile_append_dropWhile (p := fun r : DRec => decide (r.time < T)) (l := cs)
        have htw : ∀ r ∈ cs.takeWhile (fun r : DRec => decide (r.time < T)), r.time ≤ T := by
          intro r hr; have := mem_takeWhile hr; simp at this; omega
        obtain ⟨_, hdw⟩ := takeWhile_eq_filter (p := fun r => decide (r.time < T)) hso'.1
          (fun a b hab hb => by have := hab.time; simp at *; omega)
        have hdr : ∀ r ∈ cs.dropWhile (fun r : DRec => decide (r.time < T)), T ≤ r.time := by
          intro r hr; rw [hdw] at hr; simp at hr; omega
        generalize hd : cs.dropWhile (fun r : DRec => decide (r.time < T)) = d at hcs hdr ⊢
        cases d with
        | nil =>
          dsimp only
          intro r hr
          first
          | (exfalso; simp at hr; done)
          | (rcases List.mem_cons.1 hr with rfl | hr
             · omega
             · exact htw r hr)
        | cons n ns =>
          dsimp only
          split
          · rw [advance_eq]
            dsimp only
            intro r hr
            first
            | (exact hdr r ((List.dropWhile_sublist _).subset hr))
            | (rcases List.mem_cons.1 hr with rfl | hr
               · omega
               · rcases List.mem_append.1 hr with hr | hr
                 · exact htw r hr
                 · have := mem_takeWhile hr; simp at this; omega)
          · intro r hr
            first
            | (exact hdr r hr)
            | (rcases List.mem_cons.1 hr with rfl | hr
               · omega
               · exact htw r hr)

/-- Disagreement with the documented rule ("get all data through the first iteration at newTime",
src/helics/core/InputInfo.hpp:121-125): when the last earlier value was published at a later iteration, the first
iteration at the new time is not taken. -/
theorem C14_next_iteration_can_miss_first :
    let i := ({} : Input).run [.addSource ⟨200000, 1⟩ "a" "double" "V", .add ⟨200000, 1⟩ 1 3 (some [1]),
      .add ⟨200000, 1⟩ 2 0 (some [2]), .nextIteration 2]
    i.shown ⟨200000, 1⟩ = some [1] ∧ i.nextValueTime = 2 := by
  decide

/-! ## C15 -/

/-- **C15.** After any history whatever, the reported byte count is the total size of the values waiting
(in 64-bit arithmetic). -/
theorem C15_bytes_exact (i : Input) (hs : i.srcs = []) (hq : i.queued = 0) (ops : List Op) :
    (i.run ops).queued = UInt64.ofNat (((i.run ops).srcs.flatMap (·.queue)).map (·.data.length)).sum := by
  have := (run_inv (fresh_inv i hs hq) ops).bytes
  rw [this]
  unfold waiting
  generalize ((i.run ops).srcs.flatMap (·.queue)) = l
  induction l with
  | nil => rfl
  | cons x xs ih => rw [sizeOf_cons, ih, List.map_cons, List.sum_cons, UInt64.ofNat_add]

/-- **C15.** Below 2^64 bytes the count is the exact number. -/
theorem C15_bytes_exact_nat (i : Input) (hs : i.srcs = []) (hq : i.queued = 0) (ops : List Op)
    (hsm : (((i.run ops).srcs.flatMap (·.queue)).map (·.data.length)).sum < 2 ^ 64) :
    (i.run ops).queued.toNat = (((i.run ops).srcs.flatMap (·.queue)).map (·.data.length)).sum := by
  rw [C15_bytes_exact i hs hq ops]
  exact UInt64.toNat_ofNat_of_lt' hsm

/-- **C15.** In terms of the history: what is counted for a timely history is the accepted values not yet passed. -/
theorem C15_bytes_history (i : Input) (hs : i.srcs = []) (hq : i.queued = 0) (ops : List Op)
    (hpl : ∀ o ∈ ops, Plain o) (ht : Timely ops) :
    (i.run ops).queued = (((i.run ops).srcs.map (·.handle)).map fun h =>
      (((accepted i h ops).filter (fun r => !covered ops r.time)).map fun r => UInt64.ofNat r.data.length).sum).sum := by
  have hinv := run_inv (fresh_inv i hs hq) ops
  rw [hinv.bytes, List.map_map]
  unfold waiting
  have hsrc : ∀ s ∈ (i.run ops).srcs, sizeOf s.queue =
      (((accepted i s.handle ops).filter (fun r => !covered ops r.time)).map fun r => UInt64.ofNat r.data.length).sum := by
    intro s hsm
    have hsl : (i.run ops).slot s.handle = some s := by
      unfold slot; exact find_of_mem hinv.nodup hsm
    exact sizeOf_perm (C14_rest_stays_queued i hs hq ops hpl ht s.handle s hsl)
  generalize (i.run ops).srcs = l at hsrc
  induction l with
  | nil => rfl
  | cons a as ih =>
    rw [List.flatMap_cons, sizeOf_append, List.map_cons, List.sum_cons, hsrc a (by simp),
      ih (fun s hs => hsrc s (by simp [hs]))]
    rfl

example : (({} : Input).run (demoOps.take 7)).queued = 5 ∧ (({} : Input).run demoOps).queued = 1 := by decide

/-! ## C16 -/

theorem nextValue_fold (l : List Src) (nv : Time) (hso : ∀ s ∈ l, Sorted s.queue) :
    let v := l.foldl (fun nv s => match s.queue.head? with
      | some r => if r.time < nv then r.time else nv
      | none => nv) nv
    v ≤ nv ∧ (∀ s ∈ l, ∀ r ∈ s.queue, v ≤ r.time) ∧ (v = nv ∨ ∃ s ∈ l, ∃ r ∈ s.queue, r.time = v) := by
  induction l generalizing nv with
  | nil => simp
  | cons a as ih =>
    simp only [List.foldl_cons]
    have hso' : ∀ s ∈ as, Sorted s.queue := fun s hs => hso s (by simp [hs])
    cases hh : a.queue with
    | nil =>
      simp only [List.head?_nil]
      obtain ⟨h1, h2, h3⟩ := ih nv hso'
      refine ⟨h1, ?_, ?_⟩
      · intro s hs r hr
        rcases List.mem_cons.1 hs with rfl | hs
        · rw [hh] at hr; cases hr
        · exact h2 s hs r hr
      · rcases h3 with h3 | ⟨s, hs, r, hr, e⟩
        · exact .inl h3
        · exact .inr ⟨s, by simp [hs], r, hr, e⟩
    | cons c cs =>
      simp only [List.head?_cons]
      have hca : ∀ r ∈ a.queue, c.time ≤ r.time := by
        have := hso a (by simp)
        rw [hh] at this ⊢
        intro r hr
        rcases List.mem_cons.1 hr with rfl | hr
        · exact Int.le_refl _
        · exact ((List.pairwise_cons.1 this).1 r hr).time
      obtain ⟨h1, h2, h3⟩ := ih (if c.time < nv then c.time else nv) hso'
      have hle : (if c.time < nv then c.time else nv) ≤ nv ∧ (if c.time < nv then c.time else nv) ≤ c.time := by
        split <;> omega
      refine ⟨by omega, ?_, ?_⟩
      · intro s hs r hr
        rcases List.mem_cons.1 hs with rfl | hs
        · have := hca r hr; omega
        · exact h2 s hs r hr
      · rcases h3 with h3 | ⟨s, hs, r, hr, e⟩
        · by_cases hc : c.time < nv
          · exact .inr ⟨a, by simp, c, by rw [hh]; simp, by rw [h3, if_pos hc]⟩
          · exact .inl (by rw [h3, if_neg hc])
        · exact .inr ⟨s, by simp [hs], r, hr, e⟩

/-- **C16.** After any history, the next value time of an interruptible input is at most the stamp of every waiting
value and is the stamp of one of them, or the maximum time when nothing (below it) is waiting. -/
theorem C16_next_value_time (i : Input) (hs : i.srcs = []) (hq : i.queued = 0) (ops : List Op)
    (hint : (i.run ops).notInterruptible = false) :
    (∀ r ∈ (i.run ops).srcs.flatMap (·.queue), (i.run ops).nextValueTime ≤ r.time) ∧
    ((i.run ops).nextValueTime = maxVal ∨ ∃ r ∈ (i.run ops).srcs.flatMap (·.queue), r.time = (i.run ops).nextValueTime) := by
  have hinv := run_inv (fresh_inv i hs hq) ops
  have h := nextValue_fold (i.run ops).srcs maxVal hinv.sorted
  unfold nextValueTime
  rw [hint]
  simp only [Bool.false_eq_true, if_false]
  obtain ⟨h1, h2, h3⟩ := h
  refine ⟨?_, ?_⟩
  · intro r hr
    obtain ⟨s, hs, hr⟩ := List.mem_flatMap.1 hr
    exact h2 s hs r hr
  · rcases h3 with h3 | ⟨s, hs, r, hr, e⟩
    · exact .inl h3
    · exact .inr ⟨r, List.mem_flatMap.2 ⟨s, hs, hr⟩, e⟩

/-- **C16.** In terms of the history: for a timely history the next value time is the earliest stamp among accepted,
not yet passed values of the connected sources. -/
theorem C16_next_value_history (i : Input) (hs : i.srcs = []) (hq : i.queued = 0) (ops : List Op)
    (hpl : ∀ o ∈ ops, Plain o) (ht : Timely ops) (hint : (i.run ops).notInterruptible = false) (h : GHandle) (r : DRec)
    (hr : r ∈ accepted i h ops) (hnp : covered ops r.time = false) : (i.run ops).nextValueTime ≤ r.time := by
  have hT := track_history i hs hq h ops hpl ht
  cases hsl : (i.run ops).slot h with
  | none => rw [hT.absent hsl] at hr; cases hr
  | some s =>
    refine (C16_next_value_time i hs hq ops hint).1 r (List.mem_flatMap.2 ⟨s, (slot_some hsl).1, ?_⟩)
    rw [(C14_rest_stays_queued i hs hq ops hpl ht h s hsl).mem_iff]
    simp [hr, hnp]

/-- **C16.** An input set to ignore interrupts never asks to be woken. -/
theorem C16_not_interruptible (i : Input) (h : i.notInterruptible = true) : i.nextValueTime = maxVal := by
  simp [nextValueTime, h]

example : (({} : Input).run (demoOps.take 7)).nextValueTime = 10 ∧ (({} : Input).run demoOps).nextValueTime = 30 := by decide

/-! ## C17 -/

/-- Source index `a` was given priority more recently than any time `b` was. -/
def Preferred (prio : List Int) (a b : Int) : Prop :=
  ∃ before after, prio = before ++ a :: after ∧ a ∉ after ∧ b ∉ after

theorem priorityCheckRev_iff (a b : Int) (l : List Int) : priorityCheckRev a b l = true ↔
    ∃ pre post, l = pre ++ a :: post ∧ a ∉ pre ∧ b ∉ pre := by
  induction l with
  | nil => simp [priorityCheckRev]
  | cons p ps ih =>
    unfold priorityCheckRev
    by_cases h1 : p = a
    · simp only [h1, if_true, true_iff]
      exact ⟨[], ps, rfl, by simp, by simp⟩
    · simp only [h1, if_false]
      by_cases h2 : p = b
      · simp only [h2, if_true, Bool.false_eq_true, false_iff]
        rintro ⟨pre, post, e, h3, h4⟩
        cases pre with
        | nil => simp at e; exact h1 (h2.trans e.1)
        | cons x xs => simp at e; exact h4 (by rw [e.1]; simp)
      · simp only [h2, if_false, ih]
        constructor
        · rintro ⟨pre, post, e, h3, h4⟩
          exact ⟨p :: pre, post, by rw [e]; rfl, by simp [h3, Ne.symm h1], by simp [h4, Ne.symm h2]⟩
        · rintro ⟨pre, post, e, h3, h4⟩
          cases pre with
          | nil => simp at e; exact absurd e.1 h1
          | cons x xs =>
            simp at e
            exact ⟨xs, post, e.2, fun h => h3 (by simp [h]), fun h => h4 (by simp [h])⟩

theorem priorityCheck_iff (a b : Int) (prio : List Int) : priorityCheck a b prio = true ↔ Preferred prio a b := by
  unfold priorityCheck Preferred
  rw [priorityCheckRev_iff]
  constructor
  · rintro ⟨pre, post, e, h1, h2⟩
    refine ⟨post.reverse, pre.reverse, ?_, by simpa using h1, by simpa using h2⟩
    have := congrArg List.reverse e
    simpa using this
  · rintro ⟨pre, post, e, h1, h2⟩
    refine ⟨post.reverse, pre.reverse, ?_, by simpa using h1, by simpa using h2⟩
    rw [e]; simp

theorem preferred_trans {prio : List Int} {a b c : Int} (hab : Preferred prio a b) (hbc : Preferred prio b c ∨ ¬ Preferred prio c b) :
    Preferred prio a c := by
  obtain ⟨p1, q1, e1, h1, h2⟩ := hab
  by_cases hc : c ∈ q1
  · exfalso
    -- the last `c` lies after `a`, hence after every `b`
    obtain ⟨x, y, rfl, hy⟩ : ∃ x y, q1 = x ++ c :: y ∧ c ∉ y := by
      clear e1 h1 h2 hbc
      induction q1 with
      | nil => cases hc
      | cons w ws ih =>
        by_cases hw : c ∈ ws
        · obtain ⟨x, y, e, hy⟩ := ih hw
          exact ⟨w :: x, y, by rw [e]; rfl, hy⟩
        · rcases List.mem_cons.1 hc with rfl | h
          · exact ⟨[], ws, rfl, hw⟩
          · exact absurd h hw
    have hcb : Preferred prio c b := ⟨p1 ++ a :: x, y, by rw [e1]; simp, hy, fun h => h2 (by simp [h])⟩
    rcases hbc with ⟨p2, q2, e2, h3, h4⟩ | h
    · -- b after every c
      obtain ⟨p3, q3, e3, h5, h6⟩ := hcb
      rw [e2] at e3
      rcases List.append_eq_append_iff.1 e3 with ⟨z, hz1, hz2⟩ | ⟨z, hz1, hz2⟩
      · cases z with
        | nil => simp at hz2; exact h2 (by simp [hz2.1])
        | cons w ws => simp at hz2; exact h4 (by rw [hz2.2]; simp)
      · cases z with
        | nil => simp at hz2; exact h2 (by simp [hz2.1])
        | cons w ws => simp at hz2; exact h6 (by rw [hz2.2]; simp)
    · exact h hcb
  · exact ⟨p1, q1, e1, h1, hc⟩

/-- `m` beats `j` among sources updated at the same time: more recently given priority, or, when neither beats the
other, the earlier source. -/
def Beats (prio : List Int) (m j : Nat) : Prop := Preferred prio m j ∨ (¬ Preferred prio j m ∧ m < j)

theorem not_beats_lt {prio : List Int} {m j : Nat} (h : ¬ Preferred prio m j) (hne : j < m) : Beats prio j m :=
  .inr ⟨h, hne⟩

theorem selectLoop_spec (prio : List Int) (ts done : List Time) (m : Nat) (mt : Time)
    (hm : done[m]? = some mt) (hmax : ∀ (j : Nat) t, done[j]? = some t → t ≤ mt)
    (hbest : ∀ (j : Nat), done[j]? = some mt → j ≠ m → Beats prio m j) :
    ∃ k kt, selectLoop prio ts done.length m mt = Int.ofNat k ∧ (done ++ ts)[k]? = some kt ∧
      (∀ (j : Nat) t, (done ++ ts)[j]? = some t → t ≤ kt) ∧
      (∀ (j : Nat), (done ++ ts)[j]? = some kt → j ≠ k → Beats prio k j) := by
  induction ts generalizing done m mt with
  | nil =>
    refine ⟨m, mt, rfl, by simpa using hm, by simpa using hmax, by simpa using hbest⟩
  | cons t ts ih =>
    have hmlt : m < done.length := by
      apply Classical.byContradiction; intro h; rw [List.getElem?_eq_none (by omega)] at hm; cases hm
    have happ : done ++ t :: ts = (done ++ [t]) ++ ts := by simp
    have hlen : (done ++ [t]).length = done.length + 1 := by simp
    have hidx : ∀ (j : Nat) v, (done ++ [t])[j]? = some v → done[j]? = some v ∨ (j = done.length ∧ v = t) := by
      intro j v hj
      by_cases hlt : j < done.length
      · left; rwa [List.getElem?_append_left hlt] at hj
      · right
        rw [List.getElem?_append_right (by omega)] at hj
        have : j - done.length = 0 := by
          apply Classical.byContradiction; intro h; rw [List.getElem?_eq_none (by simp; omega)] at hj; cases hj
        rw [this] at hj; simp at hj; omega
    unfold selectLoop
    rw [happ]
    split
    · rename_i hgt
      rw [← hlen]
      refine ih (done ++ [t]) done.length t (by simp) ?_ ?_
      · intro j v hj
        rcases hidx j v hj with h | ⟨_, h⟩
        · have := hmax j v h; omega
        · omega
      · intro j hj hne
        rcases hidx j t hj with h | ⟨h, _⟩
        · have := hmax j t h; omega
        · exact absurd h hne
    · rename_i hgt
      split
      · rename_i heq
        rw [← hlen]
        by_cases hp : priorityCheck (done.length : Int) (m : Int) prio = true
        · rw [if_pos hp]
          rw [priorityCheck_iff] at hp
          refine ih (done ++ [t]) done.length mt (by simp [heq]) ?_ ?_
          · intro j v hj
            rcases hidx j v hj with h | ⟨_, h⟩
            · exact hmax j v h
            · omega
          · intro j hj hne
            rcases hidx j mt hj with h | ⟨h, _⟩
            · by_cases hjm : j = m
              · rw [hjm]; exact .inl hp
              · rcases hbest j h hjm with hb | ⟨hb, _⟩
                · exact .inl (preferred_trans hp (.inl hb))
                · exact .inl (preferred_trans hp (.inr hb))
            · exact absurd h hne
        · rw [if_neg hp]
          rw [priorityCheck_iff] at hp
          refine ih (done ++ [t]) m mt (by rw [List.getElem?_append_left hmlt]; exact hm) ?_ ?_
          · intro j v hj
            rcases hidx j v hj with h | ⟨_, h⟩
            · exact hmax j v h
            · omega
          · intro j hj hne
            rcases hidx j mt hj with h | ⟨h, _⟩
            · exact hbest j h hne
            · rw [h]; exact .inr ⟨hp, hmlt⟩
      · rename_i hne0
        rw [← hlen]
        refine ih (done ++ [t]) m mt (by rw [List.getElem?_append_left hmlt]; exact hm) ?_ ?_
        · intro j v hj
          rcases hidx j v hj with h | ⟨_, h⟩
          · exact hmax j v h
          · omega
        · intro j hj hne
          rcases hidx j mt hj with h | ⟨_, h⟩
          · exact hbest j h hne
          · exact absurd h.symm hne0

/-- Before any source has data the loop keeps some initial answer until the first source with data. -/
theorem selectLoop_start (prio : List Int) (ts : List Time) (done : List Time) (m0 : Int)
    (hdone : ∀ t ∈ done, t ≤ minVal) (hex : ∃ t ∈ ts, t > minVal) :
    ∃ k kt, selectLoop prio ts done.length m0 minVal = Int.ofNat k ∧ (done ++ ts)[k]? = some kt ∧ kt > minVal ∧
      (∀ (j : Nat) t, (done ++ ts)[j]? = some t → t ≤ kt) ∧
      (∀ (j : Nat), (done ++ ts)[j]? = some kt → j ≠ k → Beats prio k j) := by
  induction ts generalizing done m0 with
  | nil => obtain ⟨t, h, _⟩ := hex; cases h
  | cons t ts ih =>
    have happ : done ++ t :: ts = (done ++ [t]) ++ ts := by simp
    have hlen : (done ++ [t]).length = done.length + 1 := by simp
    unfold selectLoop
    rw [happ]
    by_cases hgt : t > minVal
    · rw [if_pos hgt, ← hlen]
      obtain ⟨k, kt, h1, h2, h3, h4⟩ := selectLoop_spec prio ts (done ++ [t]) done.length t (by simp)
        (by
          intro j v hj
          by_cases hlt : j < done.length
          · rw [List.getElem?_append_left hlt] at hj
            have := hdone v (List.mem_of_getElem? hj); omega
          · rw [List.getElem?_append_right (by omega)] at hj
            have : v ∈ [t] := List.mem_of_getElem? hj
            simp at this; omega)
        (by
          intro j hj hne
          by_cases hlt : j < done.length
          · rw [List.getElem?_append_left hlt] at hj
            have := hdone t (List.mem_of_getElem? hj); omega
          · rw [List.getElem?_append_right (by omega)] at hj
            have : j - done.length = 0 := by
              apply Classical.byContradiction; intro h; rw [List.getElem?_eq_none (by simp; omega)] at hj; cases hj
            omega)
      refine ⟨k, kt, h1, h2, ?_, h3, h4⟩
      have := h3 done.length t (by simp)
      omega
    · have hd' : ∀ x ∈ done ++ [t], x ≤ minVal := by
        intro x hx
        rcases List.mem_append.1 hx with hx | hx
        · exact hdone x hx
        · simp at hx; omega
      have hex' : ∃ x ∈ ts, x > minVal := by
        obtain ⟨x, hx, h⟩ := hex
        rcases List.mem_cons.1 hx with rfl | hx
        · exact absurd h hgt
        · exact ⟨x, hx, h⟩
      rw [if_neg hgt]
      split
      · rw [← hlen]; exact ih (done ++ [t]) _ hd' hex'
      · rw [← hlen]; exact ih (done ++ [t]) _ hd' hex'

/-- **C17.** Whenever some source has data, the value reported for a multi-source input is that of a source `k` no
source is newer than, and among sources updated at that same time `k` is the one most recently given priority (the first
connected, when priorities do not decide). -/
theorem C17_priority (i : Input) (hex : ∃ s ∈ i.srcs, s.curTime > minVal) :
    ∃ k s, i.srcs[k]? = some s ∧ i.getData = (s.cur, k) ∧ s.curTime > minVal ∧
      (∀ s' ∈ i.srcs, s'.curTime ≤ s.curTime) ∧
      (∀ (j : Nat) s', i.srcs[j]? = some s' → s'.curTime = s.curTime → j ≠ k → Beats i.priority k j) := by
  obtain ⟨k, kt, h1, h2, h3, h4, h5⟩ := selectLoop_start i.priority (i.srcs.map (·.curTime)) [] (-1) (by simp)
    (by obtain ⟨s, hs, h⟩ := hex; exact ⟨_, List.mem_map.2 ⟨s, hs, rfl⟩, h⟩)
  simp only [List.nil_append, List.getElem?_map] at h2 h4 h5
  cases hs : i.srcs[k]? with
  | none => rw [hs] at h2; cases h2
  | some s =>
    rw [hs] at h2; cases h2
    have hsel : i.selected = Int.ofNat k := h1
    refine ⟨k, s, hs, ?_, h3, ?_, ?_⟩
    · unfold getData
      rw [hsel]
      have : ((Int.ofNat k : Int) ≥ 0) := by simp
      simp only [this, if_true]
      have : (Int.ofNat k).toNat = k := rfl
      rw [this, hs]; rfl
    · intro s' hs'
      obtain ⟨j, hj, e⟩ := List.mem_iff_getElem.1 hs'
      exact h4 j s'.curTime (by rw [List.getElem?_eq_getElem hj, e]; rfl)
    · intro j s' hj ht hne
      exact h5 j (by rw [hj]; exact congrArg some ht) hne

/-- **C17.** While no source has data the input reports no value. -/
theorem C17_no_data (i : Input) (h : ∀ s ∈ i.srcs, s.cur = none) : i.getData.1 = none := by
  unfold getData
  dsimp only
  split
  · cases hs : i.srcs[(i.selected).toNat]? with
    | none => rfl
    | some s => exact h s (List.mem_of_getElem? hs)
  · rfl

/-- Two sources updated at the same time: the one listed last in the priority list is reported. -/
example :
    let i := ({} : Input).run [.addSource ⟨200000, 1⟩ "a" "" "", .addSource ⟨200001, 1⟩ "b" "" "", .addSource ⟨200002, 1⟩ "c" "" "",
      .set .inputPriorityLocation 0, .set .inputPriorityLocation 2, .set .inputPriorityLocation 1,
      .add ⟨200000, 1⟩ 5 0 (some [1]), .add ⟨200001, 1⟩ 4 0 (some [2]), .add ⟨200002, 1⟩ 5 0 (some [3]), .inclusive 6]
    i.getData = (some [3], 2) ∧ Preferred i.priority 2 0 := by
  refine ⟨by decide, [0], [1], by decide, by decide, by decide⟩

end Verif.Input
