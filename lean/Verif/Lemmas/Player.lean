import Verif.Props.PlayerSpec
/-!
# Lemmas for C68
-/
namespace Verif.Player
open Verif

theorem values_append (a b : List Out) : values (a ++ b) = values a ++ values b := by
  induction a with
  | nil => rfl
  | cons x xs ih => cases x <;> simp [values, ih]
theorem messages_append (a b : List Out) : messages (a ++ b) = messages a ++ messages b := by
  induction a with
  | nil => rfl
  | cons x xs ih => cases x <;> simp [messages, ih]
theorem values_map (l : List Point) (a : Option Time) (k : Int) : values (l.map fun p => Out.value p a k) = l := by
  induction l with
  | nil => rfl
  | cons x xs ih => simp [values, ih]
theorem messages_map (l : List Msg) (a : Option Time) : messages (l.map fun p => Out.message p a) = l := by
  induction l with
  | nil => rfl
  | cons x xs ih => simp [messages, ih]
theorem values_map' (l : List Msg) (a : Option Time) : values (l.map fun p => Out.message p a) = [] := by
  induction l with
  | nil => rfl
  | cons x xs ih => simp [values, ih]
theorem messages_map' (l : List Point) (a : Option Time) (k : Int) : messages (l.map fun p => Out.value p a k) = [] := by
  induction l with
  | nil => rfl
  | cons x xs ih => simp [messages, ih]

theorem split2 {α : Type} (P Q : α → Bool) (l : List α) :
    l.takeWhile P ++ (l.dropWhile P).takeWhile Q ++ (l.dropWhile P).dropWhile Q = l := by
  rw [List.append_assoc, List.takeWhile_append_dropWhile, List.takeWhile_append_dropWhile]

theorem send_values (s : St) (t : Time) (k : Int) (a : Option Time) :
    values (send s t k a).out ++ (send s t k a).pts = values s.out ++ s.pts := by
  unfold send
  simp only [values_append, List.map_append, values_map, values_map', List.append_nil]
  rw [List.append_assoc (values s.out), split2]

theorem send_messages (s : St) (t : Time) (k : Int) (a : Option Time) :
    messages (send s t k a).out ++ (send s t k a).msgs = messages s.out ++ s.msgs := by
  unfold send
  simp only [messages_append, List.map_append, messages_map, messages_map', List.append_nil, List.nil_append]
  rw [List.append_assoc, List.takeWhile_append_dropWhile]

theorem mem_takeWhile_imp' {α : Type} {P : α → Bool} {l : List α} {x : α} (h : x ∈ l.takeWhile P) : P x = true := by
  induction l with
  | nil => simp at h
  | cons y ys ih =>
    rw [List.takeWhile_cons] at h
    split at h
    · rename_i hy
      rcases List.mem_cons.1 h with rfl | h
      · exact hy
      · exact ih h
    · simp at h

/-- What one call of `sendInformation` publishes. -/
theorem send_out {s : St} {t : Time} {k : Int} {a : Option Time} {o : Out} (h : o ∈ (send s t k a).out) : o ∈ s.out ∨
    (∃ p ∈ s.pts, o = .value p a k ∧ (p.time < t ∨ (p.time = t ∧ p.iteration = k))) ∨
    (∃ m ∈ s.msgs, o = .message m a ∧ m.sendTime ≤ t) := by
  unfold send at h
  simp only [List.mem_append, List.mem_map] at h
  rcases h with (h | ⟨p, hp, rfl⟩) | ⟨m, hm, rfl⟩
  · exact .inl h
  · refine .inr (.inl ⟨p, ?_, rfl, ?_⟩)
    · rcases hp with hp | hp
      · exact (List.takeWhile_sublist _).subset hp
      · exact (List.dropWhile_sublist _).subset ((List.takeWhile_sublist _).subset hp)
    · rcases hp with hp | hp
      · exact .inl (by simpa using mem_takeWhile_imp' hp)
      · exact .inr (by simpa using mem_takeWhile_imp' hp)
  · exact .inr (.inr ⟨m, (List.takeWhile_sublist _).subset hm, rfl, by simpa using mem_takeWhile_imp' hm⟩)

theorem pointLe_trans {a b c : Point} (h : pointLe a b) (h' : pointLe b c) : pointLe a c := by
  unfold pointLe at *
  rcases h with h | ⟨h, h2⟩ <;> rcases h' with h' | ⟨h', h3⟩
  · exact .inl (Int.lt_trans h h')
  · exact .inl (h' ▸ h)
  · exact .inl (h ▸ h')
  · exact .inr ⟨h.trans h', by omega⟩

/-- What is left of a sorted list after dropping the front is not in the dropped range. -/
theorem dropWhile_sorted {α : Type} {R : α → α → Prop} {P : α → Bool} (hP : ∀ a b, R a b → P b = true → P a = true) {l : List α}
    (h : l.Pairwise R) : ∀ x ∈ l.dropWhile P, P x = false := by
  induction l with
  | nil => intro x hx; simp at hx
  | cons y ys ih =>
    rw [List.pairwise_cons] at h
    intro x hx
    rw [List.dropWhile_cons] at hx
    split at hx
    · exact ih h.2 x hx
    · rename_i hy
      rcases List.mem_cons.1 hx with rfl | hx
      · simpa using hy
      · by_cases hc : P x = true
        · exact absurd (hP y x (h.1 x hx) hc) hy
        · simpa using hc

/-- What is left of the points after one call. -/
theorem send_left {s : St} {t : Time} {k : Int} {a : Option Time} (hs : s.pts.Pairwise pointLe)
    (hk : ∀ p ∈ s.pts, p.time = t → k ≤ p.iteration) :
    ∀ p ∈ (send s t k a).pts, t < p.time ∨ (p.time = t ∧ k < p.iteration) := by
  intro p hp
  unfold send at hp
  dsimp only at hp
  have h1 : (s.pts.dropWhile fun p => decide (p.time < t)).Pairwise pointLe := hs.sublist (List.dropWhile_sublist _)
  have h2 : ∀ x ∈ s.pts.dropWhile fun p => decide (p.time < t), ¬ x.time < t := by
    intro x hx
    have := dropWhile_sorted (R := pointLe) (P := fun p => decide (p.time < t)) (by
      intro a b hab hb
      simp only [decide_eq_true_eq] at hb ⊢
      rcases hab with h | ⟨h, _⟩ <;> omega) hs x hx
    simpa using this
  generalize hr : (s.pts.dropWhile fun p => decide (p.time < t)) = rest at hp h1 h2
  have h3 : ∀ x ∈ rest, x.time = t → k ≤ x.iteration := by
    intro x hx; exact hk x ((List.dropWhile_sublist _).subset (hr ▸ hx))
  have hmem : p ∈ rest := (List.dropWhile_sublist _).subset hp
  have key : ∀ (l : List Point), l.Pairwise pointLe → (∀ x ∈ l, ¬ x.time < t) → (∀ x ∈ l, x.time = t → k ≤ x.iteration) →
      ∀ x ∈ l.dropWhile (fun p => decide (p.time = t) && decide (p.iteration = k)), ¬ (x.time = t ∧ x.iteration = k) := by
    intro l
    induction l with
    | nil => intro _ _ _ x hx; simp at hx
    | cons y ys ih =>
      intro a1 a2 a3 x hx
      rw [List.pairwise_cons] at a1
      rw [List.dropWhile_cons] at hx
      split at hx
      · exact ih a1.2 (fun x h => a2 x (by simp [h])) (fun x h => a3 x (by simp [h])) x hx
      · rename_i hy
        rintro ⟨b1, b2⟩
        apply hy
        rcases List.mem_cons.1 hx with rfl | hx
        · simp [b1, b2]
        · have c1 := a1.1 x hx
          have c2 := a2 y (by simp)
          have c3 := a3 y (by simp)
          rcases c1 with c1 | ⟨c1, c4⟩
          · exact absurd (b1 ▸ c1) c2
          · have d1 : y.time = t := c1.trans b1
            have d2 := c3 d1
            have : y.iteration = k := by omega
            simp [d1, this]
  have h4 := key rest h1 h2 h3 p hp
  have h5 := h2 p hmem
  have h6 := h3 p hmem
  by_cases he : p.time = t
  · have := h6 he
    exact .inr ⟨he, by have : p.iteration ≠ k := fun x => h4 ⟨he, x⟩
                       omega⟩
  · exact .inl (by change ¬ (_ : Int) < _ at h5; change ¬ (_ : Int) = _ at he; change (_ : Int) < _; omega)

theorem send_left_msgs {s : St} {t : Time} {k : Int} {a : Option Time} (hs : s.msgs.Pairwise msgLe) :
    ∀ m ∈ (send s t k a).msgs, t < m.sendTime := by
  intro m hm
  have := dropWhile_sorted (R := msgLe) (P := fun m => decide (m.sendTime ≤ t)) (by
    intro a b hab hb
    simp only [decide_eq_true_eq] at hb ⊢
    exact Int.le_trans hab hb) hs m hm
  simp only [decide_eq_false_iff_not] at this
  exact Int.not_le.1 this

/-- A call leaves a rear part of the points and of the messages. -/
theorem send_sub (s : St) (t : Time) (k : Int) (a : Option Time) :
    (send s t k a).pts.Sublist s.pts ∧ (send s t k a).msgs.Sublist s.msgs :=
  ⟨(List.dropWhile_sublist _).trans (List.dropWhile_sublist _), List.dropWhile_sublist _⟩

/-- What the head of the loop decides. -/
theorem next_ask {stop t : Time} {s : St} (h : next stop s = .ask t) : t ≤ stop ∧ t ≠ maxVal ∧
    ((∃ p, s.pts.head? = some p ∧ t ≤ p.time) ∨ s.pts = []) ∧ ((∃ m, s.msgs.head? = some m ∧ t ≤ m.sendTime) ∨ s.msgs = []) ∧
    ((∃ p ∈ s.pts, t = p.time ∧ (s.msgs = [] → p.iteration = 0 ∨ s.cur < t)) ∨ ∃ m ∈ s.msgs, t = m.sendTime) := by
  unfold next at h
  cases hp : s.pts with
  | nil =>
    cases hm : s.msgs with
    | nil => simp [hp, hm] at h
    | cons m ms =>
      simp only [hp, hm, List.head?_nil, List.head?_cons] at h
      split at h
      · cases h
      · split at h
        · cases h
        · split at h
          · rename_i h1 h2 _
            cases h
            refine ⟨Int.not_lt.1 h2, h1, .inr rfl, .inl ⟨m, rfl, Int.min_le_right _ _⟩, .inr ⟨m, by simp, ?_⟩⟩
            by_cases hx : maxVal ≤ m.sendTime
            · exact absurd (Int.min_eq_left hx) h1
            · exact Int.min_eq_right (by omega)
          · cases h
  | cons p ps =>
    cases hm : s.msgs with
    | nil =>
      simp only [hp, hm, List.head?_nil, List.head?_cons] at h
      split at h
      · cases h
      · split at h
        · cases h
        · split at h
          · rename_i h1 h2 h3
            cases h
            have he : min maxVal p.time = p.time := by
              by_cases hx : maxVal ≤ p.time
              · exact absurd (Int.min_eq_left hx) h1
              · exact Int.min_eq_right (by omega)
            exact ⟨Int.not_lt.1 h2, h1, .inl ⟨p, rfl, Int.min_le_right _ _⟩, .inr rfl, .inl ⟨p, by simp, he, fun _ => h3⟩⟩
          · cases h
    | cons m ms =>
      simp only [hp, hm, List.head?_cons] at h
      split at h
      · cases h
      · split at h
        · cases h
        · split at h
          · rename_i h1 h2 h3
            cases h
            refine ⟨Int.not_lt.1 h2, h1, .inl ⟨p, rfl, ?_⟩, .inl ⟨m, rfl, Int.min_le_right _ _⟩, ?_⟩
            · exact Int.le_trans (Int.min_le_left _ _) (Int.min_le_right _ _)
            · by_cases hx : min maxVal p.time ≤ m.sendTime
              · have e1 : min (min maxVal p.time) m.sendTime = min maxVal p.time := Int.min_eq_left hx
                rw [e1] at h1 ⊢
                by_cases hy : maxVal ≤ p.time
                · exact absurd (Int.min_eq_left hy) h1
                · exact .inl ⟨p, by simp, Int.min_eq_right (by omega), by simp⟩
              · exact .inr ⟨m, by simp, Int.min_eq_right (by omega)⟩
          · cases h

theorem next_iterate {stop t : Time} {s : St} (h : next stop s = .iterate t) : t ≤ stop ∧ t ≤ s.cur ∧ s.msgs = [] ∧
    ∃ p, s.pts.head? = some p ∧ t = p.time ∧ p.iteration ≠ 0 := by
  unfold next at h
  cases hm : s.msgs with
  | cons m ms =>
    exfalso
    simp only [hm, List.head?_cons] at h
    cases hq : s.pts.head? <;> rw [hq] at h <;> simp only [true_or, if_true] at h
    all_goals
      split at h
      · cases h
      · split at h <;> cases h
  | nil =>
    cases hp : s.pts with
    | nil => simp [hp, hm] at h
    | cons p ps =>
      simp only [hp, hm, List.head?_nil, List.head?_cons] at h
      split at h
      · cases h
      · split at h
        · cases h
        · split at h
          · cases h
          · rename_i h1 h2 h3
            cases h
            have he : min maxVal p.time = p.time := by
              by_cases hx : maxVal ≤ p.time
              · exact absurd (Int.min_eq_left hx) h1
              · exact Int.min_eq_right (by omega)
            simp only [not_or] at h3
            exact ⟨Int.not_lt.1 h2, Int.not_lt.1 h3.2, rfl, p, rfl, he, h3.1⟩

theorem next_leave {stop : Time} {s : St} (h : next stop s = .leave) (hm : stop < maxVal) (hs : s.pts.Pairwise pointLe)
    (ht : s.msgs.Pairwise msgLe) : (∀ p ∈ s.pts, stop < p.time) ∧ ∀ m ∈ s.msgs, stop < m.sendTime := by
  have hb : (∀ p, s.pts.head? = some p → stop < p.time) ∧ ∀ m, s.msgs.head? = some m → stop < m.sendTime := by
    unfold next at h
    constructor
    · intro p hp
      rw [hp] at h
      dsimp only at h
      cases hq : s.msgs.head? with
      | none =>
        rw [hq] at h; dsimp only at h
        have := Int.min_le_right maxVal p.time
        split at h
        · omega
        · split at h
          · omega
          · split at h <;> cases h
      | some m =>
        rw [hq] at h; dsimp only at h
        have := Int.min_le_right maxVal p.time
        have := Int.min_le_left (min maxVal p.time) m.sendTime
        split at h
        · omega
        · split at h
          · omega
          · simp at h
    · intro m hq
      rw [hq] at h; dsimp only at h
      cases hp : s.pts.head? with
      | none =>
        rw [hp] at h; simp only [true_or, if_true] at h
        have := Int.min_le_right maxVal m.sendTime
        split at h
        · omega
        · split at h
          · omega
          · cases h
      | some p =>
        rw [hp] at h; simp only [true_or, if_true] at h
        have := Int.min_le_right (min maxVal p.time) m.sendTime
        split at h
        · omega
        · split at h
          · omega
          · cases h
  constructor
  · cases hp : s.pts with
    | nil => simp
    | cons p ps =>
      have h0 := hb.1 p (by rw [hp]; rfl)
      rw [hp, List.pairwise_cons] at hs
      intro q hq
      rcases List.mem_cons.1 hq with rfl | hq
      · exact h0
      · rcases hs.1 q hq with h | ⟨h, _⟩
        · exact Int.lt_trans h0 h
        · exact h ▸ h0
  · cases hp : s.msgs with
    | nil => simp
    | cons p ps =>
      have h0 := hb.2 p (by rw [hp]; rfl)
      rw [hp, List.pairwise_cons] at ht
      intro q hq
      rcases List.mem_cons.1 hq with rfl | hq
      · exact h0
      · exact Int.lt_of_lt_of_le h0 (ht.1 q hq)

end Verif.Player
