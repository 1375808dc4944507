import Verif.Lemmas.Rename
/-!
# C67: numbered names are what they should be and differ
-/
namespace Verif.Rename

theorem renameAll_holds (ts : List Text) : ∀ (r : Renamers) (before : List Text), Holds r before →
    Holds (renameAll r ts).2 (before ++ ts) ∧ (renameAll r ts).1.length = ts.length ∧
    ∀ i t, ts[i]? = some t → ∃ n, (renameAll r ts).1[i]? = some n ∧ Asks (before ++ ts.take i) t n := by
  induction ts with
  | nil => intro r before h; simpa [renameAll] using h
  | cons t ts ih =>
    intro r before h
    obtain ⟨h1, h2⟩ := generate_spec h t
    obtain ⟨h3, h4, h5⟩ := ih _ _ h2
    refine ⟨by simpa [renameAll] using h3, by simp [renameAll, h4], fun i t' hi => ?_⟩
    cases i with
    | zero => simp only [List.getElem?_cons_zero, Option.some.injEq] at hi; subst hi; exact ⟨_, rfl, by rw [List.take_zero, List.append_nil]; exact h1⟩
    | succ i =>
      obtain ⟨n, e1, e2⟩ := h5 i t' (by simpa using hi)
      exact ⟨n, by simpa [renameAll] using e1, by simpa using e2⟩

/-- C67: every request of a series is answered with the name it asks for: itself, or the first marker replaced by the number of the
request among the requests for the same text. -/
theorem C67_numbered (ts : List Text) (i : Nat) (t : Text) (h : ts[i]? = some t) :
    ∃ n, (renameAll [] ts).1[i]? = some n ∧ Asks (ts.take i) t n := by
  simpa using (renameAll_holds ts [] [] holds_nil).2.2 i t h

theorem count_lt {ts : List Text} {i j : Nat} {t : Text} (hij : i < j) (hi : ts[i]? = some t) (_hj : j < ts.length) :
    (ts.take i).count t < (ts.take j).count t := by
  have h1 : (ts.take (i + 1)).Sublist (ts.take j) := (List.take_prefix_take_left (by omega)).sublist
  have h2 : ts.take (i + 1) = ts.take i ++ [t] := by rw [List.take_add_one, hi]; rfl
  have h3 := h1.count_le t
  rw [h2, List.count_append] at h3
  simp at h3
  omega

/-- C67: the same template never gives the same name twice. -/
theorem C67_distinct (ts : List Text) (i j : Nat) (hij : i < j) (t : Text) (hi : ts[i]? = some t) (hj : ts[j]? = some t)
    (hm : Contains t ['$', '{', '#', '}']) : (renameAll [] ts).1[i]? ≠ (renameAll [] ts).1[j]? := by
  obtain ⟨n, e1, a1⟩ := C67_numbered ts i t hi
  obtain ⟨n', e2, a2⟩ := C67_numbered ts j t hj
  obtain ⟨a, b, hab⟩ := hm
  have hlt := count_lt hij hi (by have := List.getElem?_eq_some_iff.1 hj; exact this.1)
  rw [e1, e2]
  intro he
  cases a1 with
  | plain hn => exact hn a b hab
  | template p s hp =>
    cases a2 with
    | plain hn => exact hn a b hab
    | template p' s' hp' =>
      obtain ⟨rfl, rfl⟩ := template_unique hp hp'
      simp only [Option.some.injEq, numbered] at he
      have := HM.toDigits_inj _ _ (List.append_cancel_left (List.append_cancel_right he))
      omega

/-- Clean templates give the same name only for the same request. -/
theorem clean_inj {t t' p p' : Text} (h : Clean t p) (h' : Clean t' p') {n n' : Nat} (e : numbered p [] n = numbered p' [] n') :
    t = t' ∧ n = n' := by
  simp only [numbered, List.append_nil] at e
  obtain ⟨e1, e2⟩ := strip p p' _ _ h.2 h'.2 (fun c hc => Nat.isDigit_of_mem_toDigits (by decide) (by decide) hc)
    (fun c hc => Nat.isDigit_of_mem_toDigits (by decide) (by decide) hc) e
  exact ⟨by rw [h.1.1, h'.1.1, e1], HM.toDigits_inj _ _ e2⟩

/-- C67: two requests for templates that end with the marker and have no digit in front of it never get the same name, whether the
templates are the same or not. -/
theorem C67_clean_distinct (ts : List Text) (i j : Nat) (hij : i < j) (t t' p p' : Text) (hi : ts[i]? = some t) (hj : ts[j]? = some t')
    (h : Clean t p) (h' : Clean t' p') : (renameAll [] ts).1[i]? ≠ (renameAll [] ts).1[j]? := by
  by_cases he : t = t'
  · subst he; exact C67_distinct ts i j hij t hi hj ⟨p, [], h.1.1⟩
  · obtain ⟨n, e1, a1⟩ := C67_numbered ts i t hi
    obtain ⟨n', e2, a2⟩ := C67_numbered ts j t' hj
    rw [e1, e2]
    intro e
    have b1 := a1.unique (.template p [] h.1)
    have b2 := a2.unique (.template p' [] h'.1)
    rw [b1, b2] at e
    exact he (clean_inj h h' (Option.some.inj e)).1

/-! ## Registration -/

theorem find_dollar_of_template {t p s : Text} (h : Template t p s) : ∃ i, find dollar t = some i ∧ i ≤ p.length := by
  cases hf : find dollar t with
  | none => exact absurd (by rw [h.1]; simp [dollar]) (find_none (by decide) hf p (['#', '}'] ++ s))
  | some i =>
    obtain ⟨a, b, e1, e2, e3⟩ := find_some hf
    exact ⟨i, rfl, e3 p (['#', '}'] ++ s) (by rw [h.1]; simp [dollar])⟩

/-- What one registration does. -/
theorem register_spec {s : Fed} {before : List Text} (h : Holds s.renamers before) (t : Text) :
    ∃ n, Asks before t n ∧ Holds (register s t).1.renamers (before ++ [t]) ∧
      ((Rejected t n ∧ (register s t).2 = .badNaming ∧ (register s t).1.names = s.names) ∨
       (¬ Rejected t n ∧ n ∈ s.names ∧ (register s t).2 = .duplicate ∧ (register s t).1.names = s.names) ∨
       (¬ Rejected t n ∧ n ∉ s.names ∧ (register s t).2 = .joined n ∧ (register s t).1.names = n :: s.names)) := by
  obtain ⟨h1, h2⟩ := generate_spec h t
  have noDollar : find dollar t = none → NoMarker t := by
    intro hd a b e
    exact find_none (by decide) hd a (['#', '}'] ++ b) (by rw [e]; simp [dollar])
  cases hd : find dollar t with
  | none =>
    have hn := noDollar hd
    have eg : generateRename s.renamers t = (t, s.renamers) := by unfold generateRename; rw [noMarker_find hn]
    rw [eg] at h2
    have hr : ¬ Rejected t t := fun x => x.1 rfl
    refine ⟨t, .plain hn, ?_, ?_⟩
    · unfold register; simp only [hd]
      simp only [Bool.false_eq_true, if_false]
      split <;> exact h2
    · by_cases hm : t ∈ s.names
      · exact .inr (.inl ⟨hr, hm, by unfold register; simp [hd, hm], by unfold register; simp [hd, hm]⟩)
      · exact .inr (.inr ⟨hr, hm, by unfold register; simp [hd, hm], by unfold register; simp [hd, hm]⟩)
  | some iloc =>
    generalize hg : generateRename s.renamers t = g at h1 h2
    obtain ⟨n, r⟩ := g
    dsimp only at h1 h2
    have hb : (decide (t ≠ n) && decide (t.take iloc ≠ n) && (find errorWord n).isSome) = true ↔ Rejected t n := by
      unfold Rejected
      simp only [Bool.and_eq_true, decide_eq_true_eq]
      have hE : (find errorWord n).isSome = true ↔ Contains n ['e', 'r', 'r', 'o', 'r'] := find_isSome (by decide)
      rw [hE]
      constructor
      · rintro ⟨⟨a, _⟩, b⟩; exact ⟨fun x => a x.symm, b⟩
      · rintro ⟨a, b⟩
        refine ⟨⟨fun x => a x.symm, fun x => ?_⟩, b⟩
        cases h1 with
        | plain _ => exact a rfl
        | template p sf hp =>
          obtain ⟨i, hi, hle⟩ := find_dollar_of_template hp
          have : iloc = i := by rw [hd] at hi; exact Option.some.inj hi
          have hl := congrArg List.length x
          have hpos := Nat.length_toDigits_pos (b := 10) (n := before.count t + 1)
          simp only [numbered, List.length_append, List.length_take] at hl
          omega
    refine ⟨n, h1, ?_, ?_⟩
    · unfold register; simp only [hd, hg]
      split
      · exact h2
      · split <;> exact h2
    · by_cases hr : Rejected t n
      · exact .inl ⟨hr, by unfold register; simp only [hd, hg]; rw [if_pos (hb.2 hr)],
          by unfold register; simp only [hd, hg]; rw [if_pos (hb.2 hr)]⟩
      · have hb' : ¬ (decide (t ≠ n) && decide (t.take iloc ≠ n) && (find errorWord n).isSome) = true := fun x => hr (hb.1 x)
        by_cases hm : n ∈ s.names
        · exact .inr (.inl ⟨hr, hm, by unfold register; simp only [hd, hg]; rw [if_neg hb', if_pos hm],
            by unfold register; simp only [hd, hg]; rw [if_neg hb', if_pos hm]⟩)
        · exact .inr (.inr ⟨hr, hm, by unfold register; simp only [hd, hg]; rw [if_neg hb', if_neg hm],
            by unfold register; simp only [hd, hg]; rw [if_neg hb', if_neg hm]⟩)

theorem snoc_ind {P : List Text → Prop} (nil : P []) (append_singleton : ∀ ts t, P ts → P (ts ++ [t])) (ts : List Text) : P ts := by
  have : ∀ n (l : List Text), l.length = n → P l := by
    intro n
    induction n with
    | zero => intro l hl; rw [List.length_eq_zero_iff.1 hl]; exact nil
    | succ n ih =>
      intro l hl
      rcases List.eq_nil_or_concat l with rfl | ⟨a, b, rfl⟩
      · exact nil
      · rw [List.concat_eq_append] at hl ⊢
        exact append_singleton a b (ih a (by simpa using hl))
  exact this _ ts rfl

theorem registerAll_append (s : Fed) (ts us : List Text) :
    registerAll s (ts ++ us) = ((registerAll s ts).1 ++ (registerAll (registerAll s ts).2 us).1, (registerAll (registerAll s ts).2 us).2) := by
  induction ts generalizing s with
  | nil => rfl
  | cons t ts ih => simp only [List.cons_append, registerAll, ih]

/-- The names of the federates that joined. -/
def joinedNames : List Answer → List Text
  | [] => []
  | .joined n :: as => n :: joinedNames as
  | _ :: as => joinedNames as

theorem joinedNames_append (a b : List Answer) : joinedNames (a ++ b) = joinedNames a ++ joinedNames b := by
  induction a with
  | nil => rfl
  | cons x xs ih => cases x <;> simp [joinedNames, ih]

theorem mem_joinedNames {as : List Answer} {n : Text} : n ∈ joinedNames as ↔ Answer.joined n ∈ as := by
  induction as with
  | nil => simp [joinedNames]
  | cons x xs ih => cases x <;> simp [joinedNames, ih]

/-- After any series of registrations from the start. -/
theorem registerAll_state (ts : List Text) : Holds (registerAll {} ts).2.renamers ts ∧
    (∀ n, n ∈ (registerAll {} ts).2.names ↔ Answer.joined n ∈ (registerAll {} ts).1) ∧ (joinedNames (registerAll {} ts).1).Nodup := by
  induction ts using snoc_ind with
  | nil => exact ⟨holds_nil, by simp [registerAll], by simp [registerAll, joinedNames]⟩
  | append_singleton ts t ih =>
    obtain ⟨h1, h2, h3⟩ := ih
    obtain ⟨n, _, hh, hc⟩ := register_spec h1 t
    rw [registerAll_append]
    simp only [registerAll]
    refine ⟨hh, ?_, ?_⟩
    · intro m
      rcases hc with ⟨_, e1, e2⟩ | ⟨_, _, e1, e2⟩ | ⟨_, _, e1, e2⟩ <;> rw [e1, e2] <;> simp [h2]
      exact or_comm
    · rw [joinedNames_append]
      rcases hc with ⟨_, e1, e2⟩ | ⟨_, _, e1, e2⟩ | ⟨_, hn, e1, e2⟩ <;> rw [e1] <;> simp only [joinedNames, List.append_nil]
      · exact h3
      · exact h3
      · rw [List.nodup_append]
        refine ⟨h3, by simp, ?_⟩
        intro a ha b hb
        rw [List.mem_singleton] at hb; subst hb
        rintro rfl
        exact hn ((h2 _).2 (mem_joinedNames.1 ha))

/-- C67: no two federates join under the same name. -/
theorem C67_unique (ts : List Text) : (joinedNames (registerAll {} ts).1).Nodup := (registerAll_state ts).2.2

/-- C67: what each registration ends in.  With `n` the name it asks for, it is refused for its naming when `n` is made from a template and
has the word "error" in it, refused as a duplicate when a federate joined under `n` before, and joins under `n` otherwise. -/
theorem C67_outcome (ts : List Text) (t : Text) : ∃ n a, (registerAll {} (ts ++ [t])).1 = (registerAll {} ts).1 ++ [a] ∧ Asks ts t n ∧
    (Rejected t n → a = .badNaming) ∧
    (¬ Rejected t n → .joined n ∈ (registerAll {} ts).1 → a = .duplicate) ∧
    (¬ Rejected t n → .joined n ∉ (registerAll {} ts).1 → a = .joined n) := by
  obtain ⟨h1, h2, h3⟩ := registerAll_state ts
  obtain ⟨n, ha, _, hc⟩ := register_spec h1 t
  refine ⟨n, (register (registerAll {} ts).2 t).2, by rw [registerAll_append]; rfl, ha, ?_, ?_, ?_⟩
  · intro hr
    rcases hc with ⟨_, e, _⟩ | ⟨x, _⟩ | ⟨x, _⟩
    · exact e
    · exact absurd hr x
    · exact absurd hr x
  · intro hr hj
    rcases hc with ⟨x, _⟩ | ⟨_, _, e, _⟩ | ⟨_, x, _⟩
    · exact absurd x hr
    · exact e
    · exact absurd ((h2 n).2 hj) x
  · intro hr hj
    rcases hc with ⟨x, _⟩ | ⟨_, x, _⟩ | ⟨_, _, e, _⟩
    · exact absurd x hr
    · exact absurd ((h2 n).1 x) hj
    · exact e

/-- Everything that joined asked for its name. -/
theorem joined_asked (ts : List Text) (n : Text) (h : Answer.joined n ∈ (registerAll {} ts).1) :
    ∃ i t, ts[i]? = some t ∧ Asks (ts.take i) t n := by
  induction ts using snoc_ind with
  | nil => simp [registerAll] at h
  | append_singleton ts t ih =>
    obtain ⟨m, a, e, hm, c1, c2, c3⟩ := C67_outcome ts t
    rw [e, List.mem_append, List.mem_singleton] at h
    rcases h with h | h
    · obtain ⟨i, t', hi, ha⟩ := ih h
      have hlt : i < ts.length := (List.getElem?_eq_some_iff.1 hi).1
      exact ⟨i, t', by rw [List.getElem?_append_left hlt]; exact hi, by rw [List.take_append_of_le_length (by omega)]; exact ha⟩
    · refine ⟨ts.length, t, by simp, ?_⟩
      have : n = m := by
        by_cases hr : Rejected t m
        · rw [c1 hr] at h; cases h
        · by_cases hj : Answer.joined m ∈ (registerAll {} ts).1
          · rw [c2 hr hj] at h; cases h
          · rw [c3 hr hj] at h; exact Answer.joined.inj h
      subst this
      simpa using hm

/-- C67: a registration under a template that ends with the marker and has no digit in front of it is never refused as a duplicate, as long
as every other registration is under such a template too, or under a plain name that does not end in a digit. -/
theorem C67_never_duplicate (ts : List Text) (t p : Text) (h : Clean t p)
    (hts : ∀ u ∈ ts, (∃ q, Clean u q) ∨ (NoMarker u ∧ ¬ EndsInDigit u)) :
    ∃ a, (registerAll {} (ts ++ [t])).1 = (registerAll {} ts).1 ++ [a] ∧
      (a = .badNaming ∨ a = .joined (numbered p [] (ts.count t + 1))) := by
  obtain ⟨n, a, e, hm, c1, c2, c3⟩ := C67_outcome ts t
  have hn := hm.unique (.template p [] h.1)
  refine ⟨a, e, ?_⟩
  by_cases hr : Rejected t n
  · exact .inl (c1 hr)
  · refine .inr (hn ▸ c3 hr fun hj => ?_)
    obtain ⟨i, u, hi, ha⟩ := joined_asked ts n hj
    rcases hts u (List.mem_of_getElem? hi) with ⟨q, hq⟩ | ⟨hq, hd⟩
    · have h2 := ha.unique (.template q [] hq.1)
      obtain ⟨e1, e2⟩ := clean_inj h hq (hn.symm.trans h2)
      subst e1
      have hlt : i < ts.length := (List.getElem?_eq_some_iff.1 hi).1
      have h3 := count_lt (ts := ts ++ [t]) (i := i) (j := ts.length) (t := t) hlt
        (by rw [List.getElem?_append_left hlt]; exact hi) (by simp)
      rw [List.take_append_of_le_length (by omega)] at h3
      simp only [List.take_left'] at h3
      omega
    · have h2 := ha.unique (.plain hq)
      apply hd
      rw [← h2, hn]
      simp only [numbered, List.append_nil]
      exact ends_of_digits _ _

/-- C67: a template with the word "error" in front of the marker or after it is always refused. -/
theorem C67_error_word (ts : List Text) (t p s : Text) (h : Template t p s) (he : Contains p ['e', 'r', 'r', 'o', 'r'] ∨
    Contains s ['e', 'r', 'r', 'o', 'r']) : (registerAll {} (ts ++ [t])).1 = (registerAll {} ts).1 ++ [.badNaming] := by
  obtain ⟨n, a, e, hm, c1, _, _⟩ := C67_outcome ts t
  have hn := hm.unique (.template p s h)
  rw [e, c1]
  refine ⟨fun x => ?_, ?_⟩
  · have x := hn.symm.trans x
    generalize hk : ts.count t + 1 = k at x
    rw [h.1] at x
    simp only [numbered, List.append_assoc] at x
    have x := List.append_cancel_left x
    cases hd : Nat.toDigits 10 k with
    | nil => exact absurd hd (digits_ne_nil _)
    | cons c cs =>
      rw [hd] at x
      simp only [List.cons_append, List.cons.injEq] at x
      have := Nat.isDigit_of_mem_toDigits (b := 10) (n := k) (c := c) (by decide) (by decide) (by rw [hd]; simp)
      rw [x.1] at this
      exact absurd this (by decide)
  · rw [hn]
    rcases he with ⟨x, y, rfl⟩ | ⟨x, y, rfl⟩
    · exact ⟨x, y ++ Nat.toDigits 10 (ts.count t + 1) ++ s, by simp [numbered]⟩
    · exact ⟨p ++ Nat.toDigits 10 (ts.count t + 1) ++ x, y, by simp [numbered]⟩

end Verif.Rename
