import Verif.Model.DelayQueue
/-
C38: messages a federate sets aside are processed in the order they arrived, source by source.
-/
namespace Verif.DelayQueue

/-! ### The list of delayed sources -/

theorem addToDelay_mem {g x : Nat} {l : List Nat} : x ∈ addToDelay g l ↔ x = g ∨ x ∈ l := by
  induction l with
  | nil => simp [addToDelay]
  | cons a l ih =>
    simp only [addToDelay]
    split
    · simp only [List.mem_cons, ih]
      constructor <;> rintro (h | h | h) <;> simp [h]
    · split
      · rename_i h; subst h
        simp only [List.mem_cons]
        constructor
        · exact .inr
        · rintro (h | h)
          · exact .inl h
          · exact h
      · simp only [List.mem_cons]

theorem addToDelay_sorted {g : Nat} {l : List Nat} (h : l.Pairwise (· < ·)) :
    (addToDelay g l).Pairwise (· < ·) := by
  induction l with
  | nil => simp [addToDelay]
  | cons a l ih =>
    rw [List.pairwise_cons] at h
    simp only [addToDelay]
    split
    · rename_i ha
      rw [List.pairwise_cons]
      refine ⟨?_, ih h.2⟩
      intro x hx
      rcases addToDelay_mem.mp hx with hx | hx
      · subst hx; exact ha
      · exact h.1 x hx
    · split
      · exact List.pairwise_cons.mpr h
      · rename_i h1 h2
        have hlt : g < a := by omega
        refine List.pairwise_cons.mpr ⟨?_, List.pairwise_cons.mpr h⟩
        intro x hx
        rcases List.mem_cons.mp hx with hx | hx
        · subst hx; exact hlt
        · exact Nat.lt_trans hlt (h.1 x hx)

theorem boundTest_iff {x : Nat} {l : List Nat} (h : l.Pairwise (· < ·)) : boundTest x l = true ↔ x ∈ l := by
  induction l with
  | nil => simp [boundTest]
  | cons a l ih =>
    rw [List.pairwise_cons] at h
    simp only [boundTest]
    split
    · rename_i ha
      rw [ih h.2, List.mem_cons]
      exact ⟨.inr, fun hx => hx.resolve_left (by omega)⟩
    · rename_i ha
      simp only [beq_iff_eq, List.mem_cons]
      constructor
      · exact fun hx => .inl hx.symm
      · rintro (hx | hx)
        · exact hx.symm
        · have := h.1 x hx; omega

/-- C38.  The list of delayed sources stays sorted without repetitions, and the test for a message's
source is membership. -/
theorem delayed_test {d : List Nat} (h : d.Pairwise (· < ·)) (x : Nat) : shouldDelay d x = true ↔ x ∈ d := by
  match d, h with
  | [], _ => simp [shouldDelay]
  | [a], _ => simp [shouldDelay]
  | [a, b], _ => simp [shouldDelay]
  | a :: b :: c :: d, h => rw [shouldDelay]; exact boundTest_iff h
                           all_goals simp

/-! ### Per source -/

/-- The messages of source `k` in a list. -/
def from_ (k : Nat) (l : List (Msg β)) : List (Msg β) := l.filter (fun m => m.src == k)

/-- The messages of source `k` that are set aside, in order. -/
def waiting (k : Nat) (qs : List (Nat × List (Msg β))) : List (Msg β) :=
  from_ k (qs.flatMap (·.2))

/-- The messages taken from the main queue in a history. -/
def received : List (Ev β) → List (Msg β)
  | [] => []
  | .enter :: l => received l
  | .recv m :: l => m :: received l

/-- The promises of the code about its own requests: a request is the federate's own message; its own
messages are never put off, nor is the second part of a request. -/
structure Sane (own : Nat) (handle : σ → Msg β → Act σ) : Prop where
  request : ∀ st m st' g, handle st m = .request st' g → m.src = own ∧ ∀ x, (g x).2 ≠ .delay
  delay : ∀ st m st', handle st m = .done st' .delay → m.src ≠ own

/-- The map: keys in order, each message under its source, nothing of its own. -/
structure MapOk (own : Nat) (qs : List (Nat × List (Msg β))) : Prop where
  sorted : (qs.map (·.1)).Pairwise (· < ·)
  src : ∀ e ∈ qs, ∀ m ∈ e.2, m.src = e.1
  own : ∀ e ∈ qs, e.1 ≠ own

theorem from_append (k : Nat) (a b : List (Msg β)) : from_ k (a ++ b) = from_ k a ++ from_ k b :=
  List.filter_append _ _

theorem from_all {k : Nat} {l : List (Msg β)} (h : ∀ m ∈ l, m.src = k) : from_ k l = l := by
  simp only [from_]
  exact List.filter_eq_self.mpr (fun m hm => by simp [h m hm])

theorem from_none {k : Nat} {l : List (Msg β)} (h : ∀ m ∈ l, m.src ≠ k) : from_ k l = [] := by
  simp only [from_]
  exact List.filter_eq_nil_iff.mpr (fun m hm => by simp [h m hm])

theorem waiting_cons (k : Nat) (e : Nat × List (Msg β)) (l : List (Nat × List (Msg β))) :
    waiting k (e :: l) = from_ k e.2 ++ waiting k l := by
  simp only [waiting, List.flatMap_cons, from_append]

theorem pushBack_keys {m : Msg β} {l : List (Nat × List (Msg β))} {x : Nat} :
    x ∈ (pushBack m l).map (·.1) ↔ x = m.src ∨ x ∈ l.map (·.1) := by
  induction l with
  | nil => simp [pushBack]
  | cons e l ih =>
    obtain ⟨k, q⟩ := e
    simp only [pushBack]
    split
    · simp only [List.map_cons, List.mem_cons, ih]
      constructor <;> rintro (h | h | h) <;> simp [h]
    · split
      · rename_i h; subst h
        simp only [List.map_cons, List.mem_cons]
        constructor
        · exact .inr
        · rintro (h | h)
          · exact .inl h
          · exact h
      · simp only [List.map_cons, List.mem_cons]

theorem pushBack_mem {m : Msg β} {l : List (Nat × List (Msg β))} {e : Nat × List (Msg β)}
    (h : e ∈ pushBack m l) : e ∈ l ∨ (e.1 = m.src ∧ e.2 ≠ [] ∧ ∀ x ∈ e.2, x = m ∨ ∃ q, (m.src, q) ∈ l ∧ x ∈ q) := by
  induction l with
  | nil =>
    simp only [pushBack, List.mem_singleton] at h
    subst h
    exact .inr ⟨rfl, by simp, by simp⟩
  | cons e0 l ih =>
    obtain ⟨k, q⟩ := e0
    simp only [pushBack] at h
    split at h
    · rcases List.mem_cons.mp h with h | h
      · exact .inl (by simp [h])
      · rcases ih h with h | ⟨h1, h2, h3⟩
        · exact .inl (List.mem_cons_of_mem _ h)
        · refine .inr ⟨h1, h2, fun x hx => ?_⟩
          rcases h3 x hx with h | ⟨q', h4, h5⟩
          · exact .inl h
          · exact .inr ⟨q', List.mem_cons_of_mem _ h4, h5⟩
    · split at h
      · rename_i hk
        rcases List.mem_cons.mp h with h | h
        · subst h
          refine .inr ⟨hk, by simp, fun x hx => ?_⟩
          rcases List.mem_append.mp hx with hx | hx
          · exact .inr ⟨q, by rw [hk]; simp, hx⟩
          · exact .inl (by simpa using hx)
        · exact .inl (List.mem_cons_of_mem _ h)
      · rcases List.mem_cons.mp h with h | h
        · subst h
          exact .inr ⟨rfl, by simp, by simp⟩
        · exact .inl h

theorem pushBack_ok {own : Nat} {m : Msg β} {l : List (Nat × List (Msg β))} (h : MapOk own l)
    (hm : m.src ≠ own) : MapOk own (pushBack m l) := by
  refine ⟨?_, ?_, ?_⟩
  · have hs := h.sorted
    clear h
    induction l with
    | nil => simp [pushBack]
    | cons e l ih =>
      obtain ⟨k, q⟩ := e
      simp only [List.map_cons, List.pairwise_cons] at hs
      simp only [pushBack]
      split
      · rename_i hk
        simp only [List.map_cons, List.pairwise_cons]
        refine ⟨?_, ih hs.2⟩
        intro x hx
        rcases pushBack_keys.mp hx with hx | hx
        · subst hx; exact hk
        · exact hs.1 x hx
      · split
        · simpa using hs
        · rename_i h1 h2
          have hlt : m.src < k := by omega
          simp only [List.map_cons, List.pairwise_cons]
          refine ⟨?_, hs⟩
          intro x hx
          rcases List.mem_cons.mp hx with hx | hx
          · subst hx; exact hlt
          · exact Nat.lt_trans hlt (hs.1 x hx)
  · intro e he x hx
    rcases pushBack_mem he with he | ⟨h1, _, h3⟩
    · exact h.src e he x hx
    · rcases h3 x hx with h4 | ⟨q, h4, h5⟩
      · rw [h4, h1]
      · rw [h1]; exact h.src _ h4 x h5
  · intro e he
    rcases pushBack_mem he with he | ⟨h1, _⟩
    · exact h.own e he
    · rw [h1]; exact hm

/-- A message set aside comes last among those of its source. -/
theorem waiting_pushBack {own : Nat} {m : Msg β} {l : List (Nat × List (Msg β))} (h : MapOk own l) (k : Nat) :
    waiting k (pushBack m l) = waiting k l ++ from_ k [m] := by
  have hs := h.sorted
  have hc := h.src
  clear h
  induction l with
  | nil => simp [pushBack, waiting, from_]
  | cons e l ih =>
    obtain ⟨j, q⟩ := e
    simp only [List.map_cons, List.pairwise_cons] at hs
    have ih := ih hs.2 (fun e he => hc e (List.mem_cons_of_mem _ he))
    simp only [pushBack]
    split
    · rw [waiting_cons, ih, waiting_cons, List.append_assoc]
    · split
      · rename_i hj
        rw [waiting_cons, waiting_cons, from_append, List.append_assoc, List.append_assoc]
        congr 1
        -- the later queues hold nothing of this source
        by_cases hk : m.src = k
        · have : waiting k l = [] := by
            refine from_none fun x hx => ?_
            obtain ⟨e, he, hxe⟩ := List.mem_flatMap.mp hx
            have h1 := hc e (List.mem_cons_of_mem _ he) x hxe
            have h2 := hs.1 e.1 (List.mem_map_of_mem he)
            omega
          rw [this, List.append_nil, List.nil_append]
        · have : from_ k [m] = [] := from_none (by simp [hk])
          rw [this, List.append_nil, List.nil_append]
      · rename_i h1 h2
        rw [waiting_cons]
        by_cases hk : m.src = k
        · have : waiting k ((j, q) :: l) = [] := by
            refine from_none fun x hx => ?_
            obtain ⟨e, he, hxe⟩ := List.mem_flatMap.mp hx
            have h3 := hc e he x hxe
            rcases List.mem_cons.mp he with he | he
            · subst he; simp only at h3; omega
            · have h4 := hs.1 e.1 (List.mem_map_of_mem he)
              omega
          rw [this, List.append_nil, List.nil_append]
        · have : from_ k [m] = [] := from_none (by simp [hk])
          simp only [this, List.append_nil, List.nil_append]

/-- What holds of one drained queue. -/
theorem drainOne_spec {own : Nat} {handle : σ → Msg β → Act σ} (k : Nat) :
    ∀ (q : List (Msg β)) (f : Fed σ β), (∀ m ∈ q, m.src = k) → f.delayed.Pairwise (· < ·) →
      (∀ x ∈ f.delayed, x ≠ own) → Sane own handle →
      (drainOne handle f q).1.done ++ (drainOne handle f q).2.1 = f.done ++ q ∧
      (drainOne handle f q).1.delayed.Pairwise (· < ·) ∧
      (∀ x ∈ (drainOne handle f q).1.delayed, x ≠ own) ∧
      (∀ x ∈ f.delayed, x ∈ (drainOne handle f q).1.delayed) ∧
      (∀ x ∈ (drainOne handle f q).2.1, x ∈ q) ∧
      ((drainOne handle f q).2.2.returnable = false → (drainOne handle f q).2.1 ≠ [] →
        k ∈ (drainOne handle f q).1.delayed) := by
  intro q
  induction q with
  | nil =>
    intro f _ h2 h2' _
    simp only [drainOne]
    exact ⟨trivial, h2, h2', fun _ h => h, fun _ h => h, fun _ h => absurd rfl h⟩
  | cons m q ih =>
    intro f h1 h2 h2' h3
    have hm : m.src = k := h1 m (by simp)
    have h1' : ∀ m ∈ q, m.src = k := fun x hx => h1 x (List.mem_cons_of_mem _ hx)
    by_cases hd : shouldDelay f.delayed m.src = true
    · simp only [drainOne, if_pos hd]
      refine ⟨trivial, h2, h2', fun _ h => h, fun _ h => h, fun _ _ => ?_⟩
      rw [← hm]; exact (delayed_test h2 _).mp hd
    · simp only [drainOne, if_neg hd]
      have hnx : ∀ f1 : Fed σ β, f1.done = f.done ++ [m] → f1.delayed = f.delayed →
          (drainOne handle f1 q).1.done ++ (drainOne handle f1 q).2.1 = f.done ++ m :: q ∧
          (drainOne handle f1 q).1.delayed.Pairwise (· < ·) ∧
          (∀ x ∈ (drainOne handle f1 q).1.delayed, x ≠ own) ∧
          (∀ x ∈ f.delayed, x ∈ (drainOne handle f1 q).1.delayed) ∧
          (∀ x ∈ (drainOne handle f1 q).2.1, x ∈ m :: q) ∧
          ((drainOne handle f1 q).2.2.returnable = false → (drainOne handle f1 q).2.1 ≠ [] →
            k ∈ (drainOne handle f1 q).1.delayed) := by
        intro f1 e1 e2
        obtain ⟨a1, a2, a2', a3, a5, a4⟩ := ih f1 h1' (by rw [e2]; exact h2) (by rw [e2]; exact h2') h3
        refine ⟨by rw [a1, e1]; simp, a2, a2', fun x hx => a3 x (by rw [e2]; exact hx),
          fun x hx => List.mem_cons_of_mem _ (a5 x hx), a4⟩
      have hret : ∀ (f1 : Fed σ β) (c : Nat), f1.done = f.done ++ [m] → f1.delayed = f.delayed →
          f1.done ++ q = f.done ++ m :: q ∧ f1.delayed.Pairwise (· < ·) ∧ (∀ x ∈ f1.delayed, x ≠ own) ∧
          (∀ x ∈ f.delayed, x ∈ f1.delayed) ∧ (∀ x ∈ q, x ∈ m :: q) ∧
          ((Res.ret c).returnable = false → q ≠ [] → k ∈ f1.delayed) := by
        intro f1 c e1 e2
        refine ⟨by rw [e1]; simp, by rw [e2]; exact h2, by rw [e2]; exact h2', fun x hx => by rw [e2]; exact hx,
          fun x hx => List.mem_cons_of_mem _ hx, fun h => by cases h⟩
      cases hh : handle f.st m with
      | done st r =>
        cases r with
        | delay =>
          simp only [plain, hh]
          refine ⟨trivial, addToDelay_sorted h2, ?_, fun x hx => addToDelay_mem.mpr (.inr hx), fun _ h => h,
            fun _ _ => addToDelay_mem.mpr (.inl hm.symm)⟩
          intro x hx
          rcases addToDelay_mem.mp hx with hx | hx
          · rw [hx]; exact h3.delay _ _ _ hh
          · exact h2' x hx
        | cont => simp only [plain, hh]; exact hnx _ rfl rfl
        | ret c => simp only [plain, hh]; exact hret { f with st := st, done := f.done ++ [m] } c rfl rfl
      | request st g => simp only [plain, hh]; exact hnx _ rfl rfl

theorem waiting_none {k : Nat} {l : List (Nat × List (Msg β))} (h1 : ∀ e ∈ l, ∀ m ∈ e.2, m.src = e.1)
    (h2 : k ∉ l.map (·.1)) : waiting k l = [] := by
  refine from_none fun x hx hxk => ?_
  obtain ⟨e, he, hxe⟩ := List.mem_flatMap.mp hx
  exact h2 (List.mem_map.mpr ⟨e, he, by rw [← h1 e he x hxe, hxk]⟩)

theorem drainAll_spec {own : Nat} {handle : σ → Msg β → Act σ} (hs : Sane own handle) :
    ∀ (l : List (Nat × List (Msg β))) (f : Fed σ β) (r0 : Res), (∀ e ∈ l, ∀ m ∈ e.2, m.src = e.1) →
      (l.map (·.1)).Pairwise (· < ·) → f.delayed.Pairwise (· < ·) → (∀ x ∈ f.delayed, x ≠ own) →
      (∀ k, from_ k (drainAll handle f r0 l).1.done ++ waiting k (drainAll handle f r0 l).2.1 =
        from_ k f.done ++ waiting k l) ∧
      (drainAll handle f r0 l).1.delayed.Pairwise (· < ·) ∧
      (∀ x ∈ (drainAll handle f r0 l).1.delayed, x ≠ own) ∧
      (∀ x ∈ f.delayed, x ∈ (drainAll handle f r0 l).1.delayed) ∧
      ((drainAll handle f r0 l).2.1.map (·.1) = l.map (·.1)) ∧
      (∀ e ∈ (drainAll handle f r0 l).2.1, ∀ m ∈ e.2, m.src = e.1) ∧
      ((drainAll handle f r0 l).2.2.returnable = false →
        ∀ e ∈ (drainAll handle f r0 l).2.1, e.2 ≠ [] → e.1 ∈ (drainAll handle f r0 l).1.delayed) := by
  intro l
  induction l with
  | nil =>
    intro f r0 _ _ h2 h3
    simp only [drainAll]
    exact ⟨fun _ => trivial, h2, h3, fun _ h => h, trivial, by simp, by simp⟩
  | cons e l ih =>
    intro f r0 h1 hp h2 h3
    simp only [List.map_cons, List.pairwise_cons] at hp
    obtain ⟨k, q⟩ := e
    have hq : ∀ m ∈ q, m.src = k := h1 (k, q) (by simp)
    obtain ⟨a1, a2, a3, a4, a5, a6⟩ := drainOne_spec (own := own) (handle := handle) k q f hq h2 h3 hs
    have hkey : ∀ j, from_ j (drainOne handle f q).1.done ++ from_ j (drainOne handle f q).2.1 =
        from_ j f.done ++ from_ j q := by
      intro j; rw [← from_append, a1, from_append]
    by_cases hr : (drainOne handle f q).2.2.returnable = true
    · simp only [drainAll, hr, if_true]
      refine ⟨fun j => ?_, a2, a3, a4, rfl, ?_, fun h => by cases h⟩
      · rw [waiting_cons, waiting_cons, ← List.append_assoc, ← List.append_assoc, hkey]
      · intro e he m hm
        rcases List.mem_cons.mp he with he | he
        · subst he; exact hq m (a5 m hm)
        · exact h1 e (List.mem_cons_of_mem _ he) m hm
    · have hr' : (drainOne handle f q).2.2.returnable = false := by simpa using hr
      obtain ⟨b1, b2, b3, b4, b5, b6, b7⟩ := ih (drainOne handle f q).1 (drainOne handle f q).2.2
        (fun e he => h1 e (List.mem_cons_of_mem _ he)) hp.2 a2 a3
      simp only [drainAll, hr', Bool.false_eq_true, if_false]
      refine ⟨fun j => ?_, b2, b3, fun x hx => b4 x (a4 x hx), ?_, ?_, ?_⟩
      · rw [waiting_cons, waiting_cons]
        -- the messages left in this queue and those processed later are of different places: only `k` matters
        have hb := b1 j
        by_cases hj : j = k
        · subst hj
          -- later queues do not add to source j's processed list between
          have hL : from_ j (drainOne handle f q).2.1 = (drainOne handle f q).2.1 :=
            from_all (fun m hm => hq m (a5 m hm))
          have hnk : j ∉ l.map (·.1) := fun h => Nat.lt_irrefl _ (hp.1 j h)
          have w1 : waiting j l = [] := waiting_none (fun e he => h1 e (List.mem_cons_of_mem _ he)) hnk
          have w2 := waiting_none b6 (by rw [b5]; exact hnk)
          rw [w1, w2, List.append_nil, List.append_nil] at hb
          rw [w1, w2, List.append_nil, List.append_nil, hb]
          exact hkey j
        · have h0 : from_ j (drainOne handle f q).2.1 = [] :=
            from_none (fun m hm => by rw [hq m (a5 m hm)]; exact fun h => hj h.symm)
          have h0' : from_ j q = [] := from_none (fun m hm => by rw [hq m hm]; exact fun h => hj h.symm)
          have hk := hkey j
          rw [h0, h0', List.append_nil, List.append_nil] at hk
          rw [h0, h0', List.nil_append, List.nil_append, hb, hk]
      · simp only [List.map_cons, b5]
      · intro e he m hm
        rcases List.mem_cons.mp he with he | he
        · subst he; exact hq m (a5 m hm)
        · exact b6 e he m hm
      · intro h e he hne
        rcases List.mem_cons.mp he with he | he
        · subst he
          exact b4 _ (a6 hr' hne)
        · exact b7 h e he hne

/-! ### Histories -/

/-- What holds between two events. -/
structure Ok (own : Nat) (f : Fed σ β) : Prop where
  map : MapOk own f.queues
  sorted : f.delayed.Pairwise (· < ·)
  notOwn : ∀ x ∈ f.delayed, x ≠ own

/-- Every source with messages set aside is being delayed. -/
def Held (f : Fed σ β) : Prop := ∀ e ∈ f.queues, e.2 ≠ [] → e.1 ∈ f.delayed

/-- The messages of source `k` processed and, after them, set aside. -/
def accounted (k : Nat) (f : Fed σ β) : List (Msg β) := from_ k f.done ++ waiting k f.queues

theorem held_waiting {own : Nat} {f : Fed σ β} (ho : Ok own f) (hh : Held f) {k : Nat} (hk : k ∉ f.delayed) :
    waiting k f.queues = [] := by
  refine from_none fun x hx hxk => ?_
  obtain ⟨e, he, hxe⟩ := List.mem_flatMap.mp hx
  have h1 := ho.map.src e he x hxe
  exact hk (by rw [← hxk, h1]; exact hh e he (List.ne_nil_of_mem hxe))

theorem processDelayQueue_ok {own : Nat} {handle : σ → Msg β → Act σ} (hs : Sane own handle) {f : Fed σ β}
    (ho : Ok own f) :
    Ok own (processDelayQueue handle f).1 ∧
    (∀ k, accounted k (processDelayQueue handle f).1 = accounted k f) ∧
    ((processDelayQueue handle f).2.returnable = false → Held (processDelayQueue handle f).1) := by
  obtain ⟨a1, a2, a3, _, a5, a6, a7⟩ := drainAll_spec hs f.queues { f with delayed := [] } .cont ho.map.src
    ho.map.sorted List.Pairwise.nil (by simp)
  refine ⟨⟨⟨?_, a6, ?_⟩, a2, a3⟩, a1, a7⟩
  · show ((drainAll handle { f with delayed := [] } .cont f.queues).2.1.map (·.1)).Pairwise (· < ·)
    rw [a5]; exact ho.map.sorted
  · intro e he
    have : e.1 ∈ (drainAll handle { f with delayed := [] } .cont f.queues).2.1.map (·.1) :=
      List.mem_map_of_mem he
    rw [a5] at this
    obtain ⟨e', he', h'⟩ := List.mem_map.mp this
    rw [← h']; exact ho.map.own e' he'

theorem receive_ok {own : Nat} {handle : σ → Msg β → Act σ} (hs : Sane own handle) {f : Fed σ β}
    (ho : Ok own f) (hh : Held f) (m : Msg β) :
    Ok own (receive handle f m).1 ∧
    (∀ k, accounted k (receive handle f m).1 = accounted k f ++ from_ k [m]) ∧
    ((receive handle f m).2.returnable = false → Held (receive handle f m).1) := by
  -- setting the message aside
  have hpush : ∀ f1 : Fed σ β, f1.queues = f.queues → f1.done = f.done → f1.delayed.Pairwise (· < ·) →
      (∀ x ∈ f1.delayed, x ≠ own) → (∀ x ∈ f.delayed, x ∈ f1.delayed) → m.src ∈ f1.delayed →
      Ok own { f1 with queues := pushBack m f1.queues } ∧
      (∀ k, accounted k { f1 with queues := pushBack m f1.queues } = accounted k f ++ from_ k [m]) ∧
      Held { f1 with queues := pushBack m f1.queues } := by
    intro f1 e1 e2 h1 h2 h3 h4
    refine ⟨⟨pushBack_ok (by rw [e1]; exact ho.map) (h2 _ h4), h1, h2⟩, fun k => ?_, ?_⟩
    · simp only [accounted, e1, e2]
      rw [waiting_pushBack ho.map, List.append_assoc]
    · intro e he hne
      rw [e1] at he
      rcases pushBack_mem he with he | ⟨h5, _⟩
      · exact h3 _ (hh e he hne)
      · simp only [h5]; exact h4
  -- processing it
  have hdone : ∀ st : σ, m.src ∉ f.delayed →
      Ok own { f with st := st, done := f.done ++ [m] } ∧
      (∀ k, accounted k { f with st := st, done := f.done ++ [m] } = accounted k f ++ from_ k [m]) ∧
      Held { f with st := st, done := f.done ++ [m] } := by
    intro st hnd
    refine ⟨⟨ho.map, ho.sorted, ho.notOwn⟩, fun k => ?_, hh⟩
    simp only [accounted, from_append]
    by_cases hk : m.src = k
    · subst hk
      rw [held_waiting ho hh hnd]; simp
    · have : from_ k [m] = [] := from_none (by simp [hk])
      rw [this]; simp
  by_cases hd : shouldDelay f.delayed m.src = true
  · simp only [receive, if_pos hd]
    obtain ⟨h1, h2, h3⟩ := hpush f rfl rfl ho.sorted ho.notOwn (fun _ h => h) ((delayed_test ho.sorted _).mp hd)
    exact ⟨h1, h2, fun _ => h3⟩
  · have hnd : m.src ∉ f.delayed := fun h => hd ((delayed_test ho.sorted _).mpr h)
    simp only [receive, if_neg hd, process]
    cases hc : handle f.st m with
    | done st r =>
      cases r with
      | delay =>
        simp only []
        obtain ⟨h1, h2, h3⟩ := hpush { f with st := st, delayed := addToDelay m.src f.delayed } rfl rfl
          (addToDelay_sorted ho.sorted)
          (fun x hx => (addToDelay_mem.mp hx).elim (fun h => h ▸ hs.delay _ _ _ hc) (ho.notOwn x))
          (fun x hx => addToDelay_mem.mpr (.inr hx)) (addToDelay_mem.mpr (.inl rfl))
        exact ⟨h1, h2, fun _ => h3⟩
      | cont =>
        simp only []
        obtain ⟨h1, h2, h3⟩ := hdone st hnd
        exact ⟨h1, h2, fun _ => h3⟩
      | ret c =>
        simp only []
        obtain ⟨h1, h2, h3⟩ := hdone st hnd
        exact ⟨h1, h2, fun _ => h3⟩
    | request st g =>
      obtain ⟨h1, h2, _⟩ := hdone st hnd
      obtain ⟨b1, b2, b3⟩ := processDelayQueue_ok hs h1
      have hg := (hs.request _ _ _ _ hc).2
      generalize hp : processDelayQueue handle { f with st := st, done := f.done ++ [m] } = p at b1 b2 b3
      obtain ⟨f1, r1⟩ := p
      simp only [] at b1 b2 b3
      simp only [hp]
      have b2' : ∀ k, accounted k f1 = accounted k f ++ from_ k [m] := fun k => by rw [b2, h2]
      cases hr : r1.returnable with
      | true =>
        simp only [if_true]
        cases r1 with
        | ret c => exact ⟨b1, b2', fun h => by simp [Res.returnable] at h⟩
        | cont => cases hr
        | delay => cases hr
      | false =>
        simp only [Bool.false_eq_true, if_false]
        have hg1 := hg f1.st
        generalize hq : g f1.st = q at hg1
        obtain ⟨st2, r2⟩ := q
        simp only [hq]
        have hfin : Ok own { f1 with st := st2 } ∧
            (∀ k, accounted k { f1 with st := st2 } = accounted k f ++ from_ k [m]) ∧
            Held { f1 with st := st2 } :=
          ⟨⟨b1.map, b1.sorted, b1.notOwn⟩, b2', b3 hr⟩
        cases r2 with
        | delay => exact absurd rfl hg1
        | cont => exact ⟨hfin.1, hfin.2.1, fun _ => hfin.2.2⟩
        | ret c => exact ⟨hfin.1, hfin.2.1, fun _ => hfin.2.2⟩

theorem runEvs_ok {own : Nat} {handle : σ → Msg β → Act σ} (hs : Sane own handle) :
    ∀ (evs : List (Ev β)) (s s' : Run σ β), Ok own s.fed → (s.inside = true → Held s.fed) →
      runEvs handle s evs = some s' →
      Ok own s'.fed ∧ (s'.inside = true → Held s'.fed) ∧
      ∀ k, accounted k s'.fed = accounted k s.fed ++ from_ k (received evs) := by
  intro evs
  induction evs with
  | nil =>
    intro s s' h1 h2 h
    simp only [runEvs, Option.some.injEq] at h
    subst h
    exact ⟨h1, h2, fun k => by simp [received, from_]⟩
  | cons e evs ih =>
    intro s s' h1 h2 h
    simp only [runEvs] at h
    cases e with
    | enter =>
      simp only [runEv] at h
      split at h
      · cases h
      · rename_i s1 h'
        split at h'
        · cases h'
        simp only [Option.some.injEq] at h'
        subst h'
        obtain ⟨a1, a2, a3⟩ := processDelayQueue_ok hs h1
        obtain ⟨b1, b2, b3⟩ := ih _ s' a1 (fun hi => a3 (by simpa using hi)) h
        exact ⟨b1, b2, fun k => by rw [b3, a2]; rfl⟩
    | recv m =>
      simp only [runEv] at h
      split at h
      · cases h
      · rename_i s1 h'
        split at h'
        · rename_i hi
          simp only [Option.some.injEq] at h'
          obtain ⟨a1, a2, a3⟩ := receive_ok hs h1 (h2 hi) m
          subst h'
          obtain ⟨b1, b2, b3⟩ := ih _ s' a1 (fun hi => a3 (by simpa using hi)) h
          refine ⟨b1, b2, fun k => ?_⟩
          rw [b3, a2, List.append_assoc, ← from_append]
          rfl
        · cases h'

/-- C38.  At every point of every history, for every way messages can be handled, and for every source: the
messages of that source processed so far, followed by those set aside, are exactly the messages
taken from that source, in the order they were taken.  So a source's messages are processed in the order they
arrived, none twice, none lost. -/
theorem delayed_messages_stay_in_order {own : Nat} {handle : σ → Msg β → Act σ} (hs : Sane own handle) (st : σ)
    {evs : List (Ev β)} {s : Run σ β} (h : runEvs handle ⟨{ st := st }, false⟩ evs = some s) (k : Nat) :
    from_ k s.fed.done ++ waiting k s.fed.queues = from_ k (received evs) := by
  have := (runEvs_ok hs evs ⟨{ st := st }, false⟩ s
    ⟨⟨by simp, by simp, by simp⟩, by simp, by simp⟩ (by simp) h).2.2 k
  simpa [accounted, from_, waiting] using this

/-- C38.  A message is set aside only while its source is being delayed: inside the processing loop, when
no source is delayed every message taken has been processed. -/
theorem nothing_left_when_no_source_is_delayed {own : Nat} {handle : σ → Msg β → Act σ} (hs : Sane own handle)
    (st : σ) {evs : List (Ev β)} {s : Run σ β} (h : runEvs handle ⟨{ st := st }, false⟩ evs = some s)
    (hi : s.inside = true) (hd : s.fed.delayed = []) (k : Nat) :
    from_ k s.fed.done = from_ k (received evs) := by
  obtain ⟨h1, h2, _⟩ := runEvs_ok hs evs ⟨{ st := st }, false⟩ s
    ⟨⟨by simp, by simp, by simp⟩, by simp, by simp⟩ (by simp) h
  rw [← delayed_messages_stay_in_order hs st h k, held_waiting h1 (h2 hi) (by simp [hd]), List.append_nil]

/-- C38.  Delaying one source holds up no other: inside the processing loop, every message taken from a
source that is not delayed has been processed. -/
theorem other_sources_not_held_up {own : Nat} {handle : σ → Msg β → Act σ} (hs : Sane own handle)
    (st : σ) {evs : List (Ev β)} {s : Run σ β} (h : runEvs handle ⟨{ st := st }, false⟩ evs = some s)
    (hi : s.inside = true) {k : Nat} (hk : k ∉ s.fed.delayed) :
    from_ k s.fed.done = from_ k (received evs) := by
  obtain ⟨h1, h2, _⟩ := runEvs_ok hs evs ⟨{ st := st }, false⟩ s
    ⟨⟨by simp, by simp, by simp⟩, by simp, by simp⟩ (by simp) h
  rw [← delayed_messages_stay_in_order hs st h k, held_waiting h1 (h2 hi) hk, List.append_nil]

/-- C38.  The federate's own requests are never set aside. -/
theorem own_never_set_aside {own : Nat} {handle : σ → Msg β → Act σ} (hs : Sane own handle)
    (st : σ) {evs : List (Ev β)} {s : Run σ β} (h : runEvs handle ⟨{ st := st }, false⟩ evs = some s) :
    waiting own s.fed.queues = [] ∧ from_ own s.fed.done = from_ own (received evs) := by
  obtain ⟨h1, _⟩ := runEvs_ok hs evs ⟨{ st := st }, false⟩ s
    ⟨⟨by simp, by simp, by simp⟩, by simp, by simp⟩ (by simp) h
  have h0 : waiting own s.fed.queues = [] :=
    waiting_none h1.map.src (fun hx => by
      obtain ⟨e, he, h'⟩ := List.mem_map.mp hx
      exact h1.map.own e he h')
  exact ⟨h0, by rw [← delayed_messages_stay_in_order hs st h own, h0, List.append_nil]⟩

/-! ### Examples -/

/-- A handler for the examples: federate 9; body 0 puts its source off while the state is below 10, body 1 ends the
loop, body 7 from the federate itself is a request that raises the state to 10 and then ends the loop; anything else is
simply processed. -/
def demo (st : Nat) (m : Msg Nat) : Act Nat :=
  if m.src = 9 then
    if m.body = 7 then .request 10 (fun x => (x, .ret 2)) else .done st .cont
  else if m.body = 0 ∧ st < 10 then .done st .delay
  else if m.body = 1 then .done st (.ret 1)
  else .done st .cont

theorem demo_sane : Sane 9 demo := by
  constructor
  · intro st m st' g h
    simp only [demo] at h
    split at h
    · rename_i hm
      split at h
      · simp only [Act.request.injEq] at h
        obtain ⟨_, rfl⟩ := h
        exact ⟨hm, by simp⟩
      · cases h
    · split at h
      · cases h
      · split at h <;> cases h
  · intro st m st' h
    simp only [demo] at h
    split at h
    · split at h <;> cases h
    · assumption

/-- Source 3 is put off, its next message waits behind the first, source 4 goes through; the federate's own request
releases both in order. -/
def demoEvs : List (Ev Nat) :=
  [.enter, .recv ⟨3, 0⟩, .recv ⟨3, 5⟩, .recv ⟨4, 6⟩, .recv ⟨9, 7⟩]

example : (runEvs demo ⟨{ st := 0 }, false⟩ (demoEvs.take 4)).map
    (fun s => (s.fed.done, s.fed.queues, s.fed.delayed, s.inside)) =
    some ([⟨4, 6⟩], [(3, [⟨3, 0⟩, ⟨3, 5⟩])], [3], true) := by decide +kernel

example : (runEvs demo ⟨{ st := 0 }, false⟩ demoEvs).map
    (fun s => (s.fed.done, s.fed.queues, s.inside)) =
    some ([⟨4, 6⟩, ⟨9, 7⟩, ⟨3, 0⟩, ⟨3, 5⟩], [(3, [])], false) := by decide +kernel

example : ∃ s, runEvs demo ⟨{ st := 0 }, false⟩ demoEvs = some s ∧
    from_ 3 s.fed.done ++ waiting 3 s.fed.queues = from_ 3 (received demoEvs) := by
  have h : (runEvs demo ⟨{ st := 0 }, false⟩ demoEvs).isSome = true := by decide +kernel
  obtain ⟨s, hs⟩ := Option.isSome_iff_exists.mp h
  exact ⟨s, hs, delayed_messages_stay_in_order demo_sane 0 hs 3⟩

/-- A disagreement for callback federates: their loop (`FederateState.cpp:1333-1343`) goes on taking messages after a result
that ends the loop elsewhere.  A request that works through the delay queue empties the list of delayed sources; if that
stops early, the messages still set aside are no longer guarded, and a newer message of the same source is
processed before them.  Here source 3 sends 0 (put off), 1, 5 and then 8, and 8 is processed before 5. -/
theorem callback_can_overtake :
    (callbackRun demo { st := 0 } [⟨3, 0⟩, ⟨3, 1⟩, ⟨3, 5⟩, ⟨9, 7⟩, ⟨3, 8⟩]).done =
      [⟨9, 7⟩, ⟨3, 0⟩, ⟨3, 1⟩, ⟨3, 8⟩] ∧
    (callbackRun demo { st := 0 } [⟨3, 0⟩, ⟨3, 1⟩, ⟨3, 5⟩, ⟨9, 7⟩, ⟨3, 8⟩]).queues = [(3, [⟨3, 5⟩])] := by
  decide +kernel

end Verif.DelayQueue
