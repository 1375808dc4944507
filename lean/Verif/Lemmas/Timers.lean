import Verif.Props.TimersSpec
/-! Message timers: what one event does to a timer, and what it does over a history. -/
namespace Verif
namespace Timers

theorem snoc_ind {α : Type} {P : List α → Prop} (h0 : P []) (h1 : ∀ l x, P l → P (l ++ [x])) (l : List α) : P l := by
  rw [← List.reverse_reverse l]
  induction l.reverse with
  | nil => simpa using h0
  | cons x r ih => rw [List.reverse_cons]; exact h1 _ _ ih

/-- the ways to split a list that was extended -/
theorem snoc_split {α : Type} {es a b : List α} {x e : α} (h : es ++ [x] = a ++ e :: b) :
    (b = [] ∧ es = a ∧ x = e) ∨ ∃ b', b = b' ++ [x] ∧ es = a ++ e :: b' := by
  rcases List.eq_nil_or_concat b with rfl | ⟨b', y, rfl⟩
  · left
    have := List.append_inj' h rfl
    simp_all
  · right
    rw [show a ++ e :: (b'.concat y) = (a ++ e :: b') ++ [y] by simp] at h
    have := List.append_inj' h rfl
    refine ⟨b', ?_, this.1⟩
    simp_all

theorem run_nil : run [] = {} := rfl

theorem run_snoc (es : List Ev) (x : Ev) : run (es ++ [x]) = (run es).step x := by
  simp [run, List.foldl_append]

theorem adds_snoc (es : List Ev) (x : Ev) : adds (es ++ [x]) = adds es + (if isAdd x then 1 else 0) := by
  unfold adds
  rw [List.filter_append, List.length_append]
  cases h : isAdd x <;> simp [h]

theorem delays_snoc (i : Nat) (es : List Ev) (x : Ev) :
    delays i (es ++ [x]) = delays i es + delays i [x] := by
  induction es with
  | nil => simp [delays]
  | cons y es ih =>
    cases y <;> simp [delays, ih] <;> omega

theorem send_len (s : S) (i : Nat) : (s.send i).slots.length = s.slots.length := by
  unfold S.send
  split
  · split
    · split <;> simp
    · rfl
  · rfl

theorem step_len (s : S) (x : Ev) :
    (s.step x).slots.length = s.slots.length + (if isAdd x then 1 else 0) := by
  cases x <;>
    simp only [S.step, S.add, S.cancel, S.cancelAll, S.update, S.move, S.delay, S.setMsg, isAdd] <;>
    (repeat' split) <;> simp_all [send_len]

theorem len_run (es : List Ev) : (run es).slots.length = adds es := by
  induction es using snoc_ind with
  | h0 => rfl
  | h1 es x ih => rw [run_snoc, step_len, adds_snoc, ih]

theorem send_sent (s : S) (i : Nat) :
    s.send i = s ∨ ∃ m d, s.slots[i]? = some ⟨some m, d⟩ ∧ d ≤ s.now ∧
      s.send i = { s with slots := s.slots.set i ⟨none, d⟩, sent := s.sent ++ [⟨i, m, s.now⟩] } := by
  unfold S.send
  split
  case h_2 => exact .inl rfl
  case h_1 x hx =>
    split
    case isFalse => exact .inl rfl
    case isTrue h =>
      split
      case h_2 => exact .inl rfl
      case h_1 m hm =>
        right
        obtain ⟨xm, d⟩ := x
        simp only at hm h
        subst hm
        exact ⟨m, d, hx, h, rfl⟩

/-- a message is sent by `run` only, and by a timer that holds it and whose time has come -/
theorem step_sent (s : S) (x : Ev) :
    ((s.step x).sent = s.sent) ∨ ∃ k i m d, x = .run k ∧ s.slots[i]? = some ⟨some m, d⟩ ∧ d ≤ s.now ∧
      (s.step x).sent = s.sent ++ [⟨i, m, s.now⟩] ∧ (s.step x).slots = s.slots.set i ⟨none, d⟩ ∧
      (∃ w, s.waits[k]? = some w ∧ w.queued = true ∧ w.idx = i) := by
  cases x with
  | run k =>
    simp only [S.step]
    split
    case h_2 => exact .inl rfl
    case h_1 w hw =>
      split
      case isFalse => exact .inl rfl
      case isTrue hq =>
        rcases send_sent { s with waits := s.waits.eraseIdx k } w.idx with h | ⟨m, d, h1, h2, h3⟩
        · left; rw [h]
        · right
          refine ⟨k, w.idx, m, d, rfl, h1, h2, ?_, ?_, w, hw, hq, rfl⟩
          · rw [h3]
          · rw [h3]
  | _ =>
    left
    simp only [S.step, S.add, S.cancel, S.cancelAll, S.update, S.move, S.delay, S.setMsg]
    try (repeat' split) <;> rfl

/-- what one event does to the message and the time of a timer -/
theorem slot_step (s : S) (x : Ev) (i m : Nat) (d : Int) (h : (s.step x).slots[i]? = some ⟨some m, d⟩) :
    (x = .add d m ∧ i = s.slots.length) ∨ (x = .update i d m ∧ i < s.slots.length) ∨
    (x = .setMsg i m ∧ i < s.slots.length ∧ ∃ o, s.slots[i]? = some ⟨o, d⟩) ∨
    (∃ d0, s.slots[i]? = some ⟨some m, d0⟩ ∧ ¬ Cancels x i ∧ ¬ Replaces x i ∧
      ((∃ t, x = .move i t ∧ d = t) ∨ (¬ Resets x i ∧ d = d0 + delays i [x]))) := by
  cases x with
  | tick n => right; right; right; exact ⟨d, h, by simp [Cancels], by simp [Replaces], .inr ⟨by simp [Resets], by simp [delays]⟩⟩
  | fire k =>
    right; right; right
    refine ⟨d, ?_, by simp [Cancels], by simp [Replaces], .inr ⟨by simp [Resets], by simp [delays]⟩⟩
    simp only [S.step] at h
    split at h
    · split at h <;> exact h
    · exact h
  | run k =>
    right; right; right
    refine ⟨d, ?_, by simp [Cancels], by simp [Replaces], .inr ⟨by simp [Resets], by simp [delays]⟩⟩
    simp only [S.step] at h
    split at h
    · split at h
      · rename_i w hw hq
        rcases send_sent { s with waits := s.waits.eraseIdx k } w.idx with h' | ⟨m', d', h1, h2, h3⟩
        · rw [h'] at h; exact h
        · rw [h3] at h
          simp only [List.getElem?_set] at h
          split at h
          · split at h <;> simp at h
          · exact h
      · exact h
    · exact h
  | add t m' =>
    simp only [S.step, S.add] at h
    by_cases hi : i < s.slots.length
    · rw [List.getElem?_append_left hi] at h
      right; right; right
      exact ⟨d, h, by simp [Cancels], by simp [Replaces], .inr ⟨by simp [Resets], by simp [delays]⟩⟩
    · left
      rw [List.getElem?_append_right (by omega)] at h
      have hl : i = s.slots.length := by
        have := (List.getElem?_eq_some_iff.1 h).1
        simp at this; omega
      subst hl
      simp at h
      simp [h]
  | cancel j =>
    simp only [S.step, S.cancel] at h
    right; right; right
    split at h
    · rename_i y hy
      simp only [List.getElem?_set] at h
      split at h
      · split at h <;> simp at h
      · rename_i hne
        exact ⟨d, h, by simp [Cancels, hne], by simp [Replaces], .inr ⟨by simp [Resets], by simp [delays]⟩⟩
    · rename_i hn
      refine ⟨d, h, ?_, by simp [Replaces], .inr ⟨by simp [Resets], by simp [delays]⟩⟩
      simp only [Cancels, Ev.cancel.injEq, reduceCtorEq, or_false]
      rintro rfl
      rw [hn] at h; cases h
  | cancelAll =>
    simp only [S.step, S.cancelAll, List.getElem?_map, Option.map_eq_some_iff] at h
    obtain ⟨y, _, hy⟩ := h
    simp at hy
  | update j t m' =>
    simp only [S.step, S.update] at h
    split at h
    · rename_i y hy
      simp only [List.getElem?_set] at h
      split at h
      · rename_i hj
        subst hj
        split at h
        · rename_i hl
          simp only [Option.some.injEq, Slot.mk.injEq] at h
          right; left
          exact ⟨by rw [h.1, h.2], hl⟩
        · cases h
      · rename_i hne
        right; right; right
        exact ⟨d, h, by simp [Cancels], by simp [Replaces, hne], .inr ⟨by simp [Resets, hne], by simp [delays]⟩⟩
    · rename_i hn
      right; right; right
      have hne : j ≠ i := by rintro rfl; rw [hn] at h; cases h
      exact ⟨d, h, by simp [Cancels], by simp [Replaces, hne], .inr ⟨by simp [Resets, hne], by simp [delays]⟩⟩
  | move j t =>
    simp only [S.step, S.move] at h
    right; right; right
    split at h
    · rename_i y hy
      simp only [List.getElem?_set] at h
      split at h
      · rename_i hj
        subst hj
        split at h
        · simp only [Option.some.injEq, Slot.mk.injEq] at h
          refine ⟨y.due, ?_, by simp [Cancels], by simp [Replaces], .inl ⟨t, rfl, h.2.symm⟩⟩
          rw [hy]
          obtain ⟨ym, yd⟩ := y
          simp only at h
          rw [h.1]
        · cases h
      · rename_i hne
        exact ⟨d, h, by simp [Cancels], by simp [Replaces], .inr ⟨by simp [Resets, hne], by simp [delays]⟩⟩
    · rename_i hn
      have hne : j ≠ i := by rintro rfl; rw [hn] at h; cases h
      exact ⟨d, h, by simp [Cancels], by simp [Replaces], .inr ⟨by simp [Resets, hne], by simp [delays]⟩⟩
  | delay j n =>
    simp only [S.step, S.delay] at h
    right; right; right
    split at h
    · rename_i y hy
      split at h
      · rename_i hnone
        have hne : j ≠ i := by
          rintro rfl; rw [hy] at h
          simp only [Option.some.injEq] at h
          subst h; cases hnone
        exact ⟨d, h, by simp [Cancels], by simp [Replaces], .inr ⟨by simp [Resets], by simp [delays, hne]⟩⟩
      · simp only [List.getElem?_set] at h
        split at h
        · rename_i hj
          subst hj
          split at h
          · simp only [Option.some.injEq, Slot.mk.injEq] at h
            refine ⟨y.due, ?_, by simp [Cancels], by simp [Replaces], .inr ⟨by simp [Resets], by simp [delays, h.2]⟩⟩
            rw [hy]
            obtain ⟨ym, yd⟩ := y
            simp only at h
            rw [h.1]
          · cases h
        · rename_i hne
          exact ⟨d, h, by simp [Cancels], by simp [Replaces], .inr ⟨by simp [Resets], by simp [delays, hne]⟩⟩
    · rename_i hn
      have hne : j ≠ i := by rintro rfl; rw [hn] at h; cases h
      exact ⟨d, h, by simp [Cancels], by simp [Replaces], .inr ⟨by simp [Resets], by simp [delays, hne]⟩⟩
  | setMsg j m' =>
    simp only [S.step, S.setMsg] at h
    right; right
    split at h
    · rename_i y hy
      simp only [List.getElem?_set] at h
      split at h
      · rename_i hj
        subst hj
        split at h
        · rename_i hl
          left
          simp only [Option.some.injEq, Slot.mk.injEq] at h
          obtain ⟨ym, yd⟩ := y
          simp only at h
          exact ⟨by rw [h.1], hl, ym, by rw [hy, h.2]⟩
        · cases h
      · rename_i hne
        right
        exact ⟨d, h, by simp [Cancels], by simp [Replaces, hne], .inr ⟨by simp [Resets], by simp [delays]⟩⟩
    · rename_i hn
      right
      have hne : j ≠ i := by rintro rfl; rw [hn] at h; cases h
      exact ⟨d, h, by simp [Cancels], by simp [Replaces, hne], .inr ⟨by simp [Resets], by simp [delays]⟩⟩

/-- how a message came to a timer that holds it, and how the time of the timer was set since -/
theorem held (es : List Ev) (i m : Nat) (d : Int) (h : (run es).slots[i]? = some ⟨some m, d⟩) :
    ∃ pre e mid, es = pre ++ e :: mid ∧ Gives pre e i m ∧ (∀ x ∈ mid, ¬ Cancels x i ∧ ¬ Replaces x i) ∧
      sentBy i (run es) = sentBy i (run pre) ∧
      ∀ pre' e' mid' t, es = pre' ++ e' :: mid' → pre.length ≤ pre'.length → Sets pre' e' i t →
        (∀ x ∈ mid', ¬ Resets x i) → d = t + delays i mid' := by
  induction es using snoc_ind generalizing d with
  | h0 => simp [run] at h
  | h1 es x ih =>
    rw [run_snoc] at h
    have hsent : sentBy i ((run es).step x) = sentBy i (run es) := by
      rcases step_sent (run es) x with h' | ⟨k, i', m', d', -, h1, -, h3, h4, -⟩
      · unfold sentBy; rw [h']
      · have : i' ≠ i := by
          rintro rfl
          rw [h4, List.getElem?_set] at h
          simp only [if_true] at h
          split at h <;> simp at h
        unfold sentBy; rw [h3, List.filter_append]; simp [this]
    have fresh : Gives es x i m → (∀ t, Sets es x i t → d = t) →
        ∃ pre e mid, es ++ [x] = pre ++ e :: mid ∧ Gives pre e i m ∧ (∀ x ∈ mid, ¬ Cancels x i ∧ ¬ Replaces x i) ∧
          sentBy i (run (es ++ [x])) = sentBy i (run pre) ∧
          ∀ pre' e' mid' t, es ++ [x] = pre' ++ e' :: mid' → pre.length ≤ pre'.length → Sets pre' e' i t →
            (∀ x ∈ mid', ¬ Resets x i) → d = t + delays i mid' := by
      intro hg ht
      refine ⟨es, x, [], rfl, hg, by simp, by rw [run_snoc, hsent], ?_⟩
      intro pre' e' mid' t he hl hs _
      rcases snoc_split he with ⟨rfl, rfl, rfl⟩ | ⟨b', rfl, rfl⟩
      · simpa [delays] using ht t hs
      · simp at hl; omega
    rcases slot_step (run es) x i m d h with ⟨rfl, hi⟩ | ⟨rfl, hi⟩ | ⟨rfl, hi, -⟩ | ⟨d0, h0, hc, hr, hd⟩
    · rw [len_run] at hi
      exact fresh ⟨hi, rfl⟩ (fun t ht => ht.2.symm)
    · rw [len_run] at hi
      exact fresh ⟨rfl, hi, rfl⟩ (fun t ht => ht.2.2.symm)
    · rw [len_run] at hi
      exact fresh ⟨rfl, hi, rfl⟩ (fun t ht => ht.elim)
    · obtain ⟨pre, e, mid, rfl, hg, hm, hs, ht⟩ := ih d0 h0
      refine ⟨pre, e, mid ++ [x], by simp, hg, ?_, by rw [run_snoc, hsent, hs], ?_⟩
      · intro y hy
        rcases List.mem_append.1 hy with hy | hy
        · exact hm y hy
        · rw [List.mem_singleton.1 hy]; exact ⟨hc, hr⟩
      · intro pre' e' mid' t he hl hs' hn
        rcases snoc_split he with ⟨rfl, rfl, rfl⟩ | ⟨b', rfl, he'⟩
        · rcases hd with ⟨t', rfl, rfl⟩ | ⟨hnr, hd⟩
          · simp only [Sets] at hs'
            simp [delays, hs'.2.2]
          · exfalso
            have hlen := len_run (pre ++ e :: mid)
            have hb := (List.getElem?_eq_some_iff.1 h0).1
            cases x with
            | add t' m' => simp only [Sets] at hs'; omega
            | update j t' m' => simp only [Sets] at hs'; exact hnr (.inl ⟨t', m', by rw [hs'.1]⟩)
            | move j t' => simp only [Sets] at hs'; exact hnr (.inr ⟨t', by rw [hs'.1]⟩)
            | _ => exact hs'
        · have hn' := hn x (by simp)
          rcases hd with ⟨t', rfl, rfl⟩ | ⟨hnr, hd⟩
          · exact absurd (.inr ⟨_, rfl⟩) hn'
          · rw [delays_snoc, hd, ht pre' e' b' t he' hl hs' (fun y hy => hn y (by simp [hy]))]
            omega

/-- a timer that holds a message has a handler for its time -/
def Armed (s : S) (i : Nat) : Prop :=
  ∀ m d, s.slots[i]? = some ⟨some m, d⟩ →
    ∃ w ∈ s.waits, w.idx = i ∧ w.time = d ∧ (w.queued = true → d ≤ s.now)

theorem armed_drop {s : S} {i j : Nat} (h : Armed s i) (hne : j ≠ i) (m : Nat) (d : Int)
    (hs : s.slots[i]? = some ⟨some m, d⟩) :
    ∃ w ∈ s.drop j, w.idx = i ∧ w.time = d ∧ (w.queued = true → d ≤ s.now) := by
  obtain ⟨w, hw, h1, h2, h3⟩ := h m d hs
  refine ⟨w, ?_, h1, h2, h3⟩
  simp only [S.drop, List.mem_filter, hw, true_and, Bool.or_eq_true, bne_iff_ne, ne_eq]
  right; rw [h1]; exact fun e => hne e.symm

theorem armed_send {s : S} {i : Nat} (k : Nat) (w : Wait) (hw : s.waits[k]? = some w) (hq : w.queued = true)
    (h : Armed s i) : Armed (S.send { s with waits := s.waits.eraseIdx k } w.idx) i := by
  intro m d hs
  rcases send_sent { s with waits := s.waits.eraseIdx k } w.idx with h' | ⟨m', d', h1, h2, h3⟩
  · rw [h'] at hs ⊢
    obtain ⟨v, hv, e1, e2, e3⟩ := h m d hs
    obtain ⟨n, hn, hvn⟩ := List.getElem_of_mem hv
    by_cases hnk : n = k
    · exfalso
      subst hnk
      have hvw : v = w := by
        rw [List.getElem?_eq_getElem hn, hvn] at hw
        exact Option.some.inj hw
      subst hvw
      have : (S.send { s with waits := s.waits.eraseIdx n } v.idx).slots = s.slots := by rw [h']
      rw [S.send] at this
      simp only [e1, hs] at this
      rw [if_pos (by simpa using e3 hq)] at this
      simp only at this
      have h0 := congrArg (·[i]?) this
      simp only [hs, List.getElem?_set] at h0
      split at h0
      · split at h0 <;> simp at h0
      · rename_i hx; exact hx trivial
    · refine ⟨v, ?_, e1, e2, e3⟩
      exact (List.mem_eraseIdx_iff_getElem?).2 ⟨n, hnk, by rw [List.getElem?_eq_getElem hn, hvn]⟩
  · rw [h3] at hs ⊢
    simp only [List.getElem?_set] at hs
    split at hs
    · split at hs <;> simp at hs
    · rename_i hne
      obtain ⟨v, hv, e1, e2, e3⟩ := h m d hs
      obtain ⟨n, hn, hvn⟩ := List.getElem_of_mem hv
      refine ⟨v, ?_, e1, e2, e3⟩
      refine (List.mem_eraseIdx_iff_getElem?).2 ⟨n, ?_, by rw [List.getElem?_eq_getElem hn, hvn]⟩
      rintro rfl
      apply hne
      rw [List.getElem?_eq_getElem hn, hvn] at hw
      rw [← Option.some.inj hw, e1]

theorem armed_step {s : S} {x : Ev} {i : Nat} (hx : ∀ m, x ≠ .setMsg i m) (h : Armed s i) : Armed (s.step x) i := by
  intro m d hs
  cases x with
  | tick n =>
    obtain ⟨w, hw, h1, h2, h3⟩ := h m d hs
    refine ⟨w, hw, h1, h2, fun hq => ?_⟩
    have := h3 hq
    simp only [S.step]; omega
  | fire k =>
    simp only [S.step] at hs ⊢
    split at hs
    · rename_i w hw
      try simp only [hw]
      split at hs
      · rename_i hf
        rw [if_pos hf]
        obtain ⟨v, hv, e1, e2, e3⟩ := h m d hs
        obtain ⟨n, hn, hvn⟩ := List.getElem_of_mem hv
        by_cases hnk : n = k
        · subst hnk
          have hvw : v = w := by
            rw [List.getElem?_eq_getElem hn, hvn] at hw
            exact Option.some.inj hw
          subst hvw
          refine ⟨{ v with queued := true }, List.mem_set hn _, e1, e2, fun _ => ?_⟩
          rw [← e2]; exact hf.2
        · refine ⟨v, ?_, e1, e2, e3⟩
          rw [List.mem_iff_getElem?]
          exact ⟨n, by rw [List.getElem?_set_ne (by omega), List.getElem?_eq_getElem hn, hvn]⟩
      · rename_i hf
        rw [if_neg hf]
        exact h m d hs
    · rename_i hn
      try simp only [hn]
      exact h m d hs
  | run k =>
    simp only [S.step] at hs ⊢
    split at hs
    · rename_i w hw
      try simp only [hw]
      split at hs
      · rename_i hq
        rw [if_pos hq]
        exact armed_send k w hw hq h m d hs
      · rename_i hq
        rw [if_neg hq]
        exact h m d hs
    · rename_i hn
      try simp only [hn]
      exact h m d hs
  | add t m' =>
    simp only [S.step, S.add] at hs ⊢
    by_cases hi : i < s.slots.length
    · rw [List.getElem?_append_left hi] at hs
      obtain ⟨w, hw, h1, h2, h3⟩ := h m d hs
      exact ⟨w, by simp [hw], h1, h2, h3⟩
    · rw [List.getElem?_append_right (by omega)] at hs
      have hl : i = s.slots.length := by
        have := (List.getElem?_eq_some_iff.1 hs).1
        simp at this; omega
      subst hl
      simp at hs
      refine ⟨_, List.mem_append_right _ (List.mem_singleton.2 rfl), rfl, hs.2, ?_⟩
      simp only [Bool.not_eq_true', decide_eq_false_iff_not]
      omega
  | cancel j =>
    simp only [S.step, S.cancel] at hs ⊢
    split at hs
    · rename_i y hy
      try simp only [hy]
      simp only [List.getElem?_set] at hs
      split at hs
      · split at hs <;> simp at hs
      · rename_i hne
        exact armed_drop h hne m d hs
    · rename_i hn
      try simp only [hn]
      exact h m d hs
  | cancelAll =>
    simp only [S.step, S.cancelAll, List.getElem?_map, Option.map_eq_some_iff] at hs
    obtain ⟨y, _, hy⟩ := hs
    simp at hy
  | update j t m' =>
    simp only [S.step, S.update] at hs ⊢
    split at hs
    · rename_i y hy
      try simp only [hy]
      simp only [List.getElem?_set] at hs
      split at hs
      · rename_i hj
        subst hj
        split at hs
        · simp only [Option.some.injEq, Slot.mk.injEq] at hs
          exact ⟨_, List.mem_append_right _ (List.mem_singleton.2 rfl), rfl, hs.2, by simp⟩
        · cases hs
      · rename_i hne
        obtain ⟨w, hw, hr⟩ := armed_drop h hne m d hs
        exact ⟨w, List.mem_append_left _ hw, hr⟩
    · rename_i hn
      try simp only [hn]
      exact h m d hs
  | move j t =>
    simp only [S.step, S.move] at hs ⊢
    split at hs
    · rename_i y hy
      try simp only [hy]
      simp only [List.getElem?_set] at hs
      split at hs
      · rename_i hj
        subst hj
        split at hs
        · simp only [Option.some.injEq, Slot.mk.injEq] at hs
          exact ⟨_, List.mem_append_right _ (List.mem_singleton.2 rfl), rfl, hs.2, by simp⟩
        · cases hs
      · rename_i hne
        obtain ⟨w, hw, hr⟩ := armed_drop h hne m d hs
        exact ⟨w, List.mem_append_left _ hw, hr⟩
    · rename_i hn
      try simp only [hn]
      exact h m d hs
  | delay j n =>
    simp only [S.step, S.delay] at hs ⊢
    split at hs
    · rename_i y hy
      try simp only [hy]
      split at hs
      · rename_i hnone
        rw [if_pos hnone]
        exact h m d hs
      · rename_i hnone
        rw [if_neg hnone]
        simp only [List.getElem?_set] at hs
        split at hs
        · rename_i hj
          subst hj
          split at hs
          · simp only [Option.some.injEq, Slot.mk.injEq] at hs
            exact ⟨_, List.mem_append_right _ (List.mem_singleton.2 rfl), rfl, hs.2, by simp⟩
          · cases hs
        · rename_i hne
          obtain ⟨w, hw, hr⟩ := armed_drop h hne m d hs
          exact ⟨w, List.mem_append_left _ hw, hr⟩
    · rename_i hn
      try simp only [hn]
      exact h m d hs
  | setMsg j m' =>
    have hne : j ≠ i := by rintro rfl; exact hx m' rfl
    simp only [S.step, S.setMsg] at hs ⊢
    split at hs
    · rename_i y hy
      try simp only [hy]
      rw [List.getElem?_set_ne hne] at hs
      exact h m d hs
    · rename_i hn
      try simp only [hn]
      exact h m d hs

theorem armed_run (es : List Ev) (i : Nat) (h : ∀ m, .setMsg i m ∉ es) : Armed (run es) i := by
  induction es using snoc_ind with
  | h0 => intro m d hs; simp [run] at hs
  | h1 es x ih =>
    rw [run_snoc]
    refine armed_step (fun m e => h m (by simp [e])) (ih fun m hm => h m (by simp [hm]))

/-- a timer that holds a message keeps it, or hands it over -/
theorem kept_step {s : S} {x : Ev} {i m : Nat} {d : Int} (h : s.slots[i]? = some ⟨some m, d⟩)
    (hc : ¬ Cancels x i) (hr : ¬ Replaces x i) :
    (∃ d', (s.step x).slots[i]? = some ⟨some m, d'⟩) ∨
      (∃ k, x = .run k ∧ (s.step x).sent = s.sent ++ [⟨i, m, s.now⟩]) := by
  have hlen := (List.getElem?_eq_some_iff.1 h).1
  cases x with
  | tick n => exact .inl ⟨d, h⟩
  | fire k =>
    left
    refine ⟨d, ?_⟩
    simp only [S.step]
    split
    · split <;> exact h
    · exact h
  | run k =>
    simp only [S.step]
    split
    · rename_i w hw
      split
      · rename_i hq
        rcases send_sent { s with waits := s.waits.eraseIdx k } w.idx with h' | ⟨m', d', h1, h2, h3⟩
        · left; rw [h']; exact ⟨d, h⟩
        · rw [h3]
          by_cases hi : w.idx = i
          · right
            simp only [hi] at h1 ⊢
            rw [h] at h1
            simp only [Option.some.injEq, Slot.mk.injEq] at h1
            exact ⟨k, rfl, by rw [h1.1]⟩
          · left
            exact ⟨d, by simp only [List.getElem?_set_ne hi]; exact h⟩
      · exact .inl ⟨d, h⟩
    · exact .inl ⟨d, h⟩
  | add t m' => exact .inl ⟨d, by simp only [S.step, S.add]; rw [List.getElem?_append_left hlen]; exact h⟩
  | cancelAll => exact absurd (.inr rfl) hc
  | cancel j =>
    have hne : j ≠ i := by rintro rfl; exact hc (.inl rfl)
    left; refine ⟨d, ?_⟩
    simp only [S.step, S.cancel]
    split
    · simp only [List.getElem?_set_ne hne]; exact h
    · exact h
  | update j t m' =>
    have hne : j ≠ i := by rintro rfl; exact hr (.inl ⟨_, _, rfl⟩)
    left; refine ⟨d, ?_⟩
    simp only [S.step, S.update]
    split
    · simp only [List.getElem?_set_ne hne]; exact h
    · exact h
  | setMsg j m' =>
    have hne : j ≠ i := by rintro rfl; exact hr (.inr ⟨_, rfl⟩)
    left; refine ⟨d, ?_⟩
    simp only [S.step, S.setMsg]
    split
    · simp only [List.getElem?_set_ne hne]; exact h
    · exact h
  | move j t =>
    left
    simp only [S.step, S.move]
    split
    · rename_i y hy
      by_cases hj : j = i
      · subst hj
        rw [h] at hy; cases hy
        exact ⟨t, by simp [hlen]⟩
      · exact ⟨d, by simp only [List.getElem?_set_ne hj]; exact h⟩
    · exact ⟨d, h⟩
  | delay j n =>
    left
    simp only [S.step, S.delay]
    split
    · rename_i y hy
      split
      · exact ⟨d, h⟩
      · by_cases hj : j = i
        · subst hj
          rw [h] at hy; cases hy
          exact ⟨d + n, by simp [hlen]⟩
        · exact ⟨d, by simp only [List.getElem?_set_ne hj]; exact h⟩
    · exact ⟨d, h⟩

theorem gives_step {pre : List Ev} {e : Ev} {i m : Nat} (h : Gives pre e i m) :
    ∃ d, (run (pre ++ [e])).slots[i]? = some ⟨some m, d⟩ := by
  rw [run_snoc]
  have hl := len_run pre
  cases e with
  | add t m' =>
    obtain ⟨h1, h2⟩ := h
    refine ⟨t, ?_⟩
    simp only [S.step, S.add]
    rw [List.getElem?_append_right (by omega), h1, ← hl]
    simp [h2]
  | update j t m' =>
    obtain ⟨rfl, h1, rfl⟩ := h
    have hb : j < (run pre).slots.length := by omega
    refine ⟨t, ?_⟩
    simp only [S.step, S.update, List.getElem?_eq_getElem hb]
    simp [hb]
  | setMsg j m' =>
    obtain ⟨rfl, h1, rfl⟩ := h
    have hb : j < (run pre).slots.length := by omega
    refine ⟨((run pre).slots[j]).due, ?_⟩
    simp only [S.step, S.setMsg, List.getElem?_eq_getElem hb]
    simp [hb]
  | _ => exact h.elim

theorem kept_run {pre : List Ev} {e : Ev} {i m : Nat} (h : Gives pre e i m) (mid : List Ev)
    (hc : ∀ x ∈ mid, ¬ Cancels x i ∧ ¬ Replaces x i) :
    (∃ d, (run (pre ++ e :: mid)).slots[i]? = some ⟨some m, d⟩) ∨
      ∃ a k b, mid = a ++ .run k :: b ∧
        (run (pre ++ e :: (a ++ [.run k]))).sent = (run (pre ++ e :: a)).sent ++ [⟨i, m, (run (pre ++ e :: a)).now⟩] := by
  induction mid using snoc_ind with
  | h0 => exact .inl (gives_step h)
  | h1 mid x ih =>
    rcases ih (fun y hy => hc y (by simp [hy])) with ⟨d, hd⟩ | ⟨a, k, b, rfl, hs⟩
    · have hx := hc x (by simp)
      rw [show pre ++ e :: (mid ++ [x]) = (pre ++ e :: mid) ++ [x] by simp, run_snoc]
      rcases kept_step hd hx.1 hx.2 with h' | ⟨k, rfl, h'⟩
      · exact .inl h'
      · right
        refine ⟨mid, k, [], rfl, ?_⟩
        rw [show pre ++ e :: (mid ++ [Ev.run k]) = (pre ++ e :: mid) ++ [.run k] by simp, run_snoc, h']
    · exact .inr ⟨a, k, b ++ [x], by simp, hs⟩

theorem sum_set (l : List Nat) (k : Nat) (x a : Nat) (h : l[k]? = some a) : (l.set k x).sum + a = l.sum + x := by
  induction l generalizing k with
  | nil => simp at h
  | cons y l ih =>
    cases k with
    | zero => simp at h; subst h; simp; omega
    | succ k => simp at h; have := ih k h; simp; omega

theorem sum_erase (l : List Nat) (k : Nat) (a : Nat) (h : l[k]? = some a) : (l.eraseIdx k).sum + a = l.sum := by
  induction l generalizing k with
  | nil => simp at h
  | cons y l ih =>
    cases k with
    | zero => simp at h; subst h; simp; omega
    | succ k => simp at h; have := ih k h; simp; omega

theorem map_eraseIdx' {α β : Type} (f : α → β) (l : List α) (k : Nat) : (l.eraseIdx k).map f = (l.map f).eraseIdx k := by
  induction l generalizing k with
  | nil => simp
  | cons y l ih => cases k <;> simp [ih]

theorem send_waits (s : S) (i : Nat) : (s.send i).waits = s.waits := by
  rcases send_sent s i with h | ⟨m, d, -, -, h⟩ <;> rw [h]

theorem send_now (s : S) (i : Nat) : (s.send i).now = s.now := by
  rcases send_sent s i with h | ⟨m, d, -, -, h⟩ <;> rw [h]

theorem fire_pending (s : S) (k : Nat) (w : Wait) (hw : s.waits[k]? = some w) (hq : w.queued = false) (ht : w.time ≤ s.now) :
    pending (s.step (.fire k)) + 1 = pending s := by
  simp only [S.step, hw, hq, ht, and_self, if_true, pending, List.map_set]
  have := sum_set (s.waits.map fun w => if w.queued then 1 else 2) k 1 2 (by simp [hw, hq])
  omega

theorem run_pending (s : S) (k : Nat) (w : Wait) (hw : s.waits[k]? = some w) (hq : w.queued = true) :
    pending (s.step (.run k)) + 1 = pending s := by
  simp only [S.step, hw, hq, if_true, pending, send_waits, map_eraseIdx']
  have := sum_erase (s.waits.map fun w => if w.queued then 1 else 2) k 1 (by simp [hw, hq])
  omega

/-- the time of a timer is not moved forward unless it is set again or delayed by a negative time -/
theorem due_step {s : S} {x : Ev} {i : Nat} {o : Option Nat} {d : Int} (h : s.slots[i]? = some ⟨o, d⟩)
    (hr : ¬ Resets x i) (hd : ∀ n, x = .delay i n → 0 ≤ n) :
    ∃ o' d', (s.step x).slots[i]? = some ⟨o', d'⟩ ∧ d ≤ d' := by
  have hlen := (List.getElem?_eq_some_iff.1 h).1
  cases x with
  | tick n => exact ⟨o, d, h, Int.le_refl _⟩
  | fire k =>
    refine ⟨o, d, ?_, Int.le_refl _⟩
    simp only [S.step]
    split
    · split <;> exact h
    · exact h
  | run k =>
    simp only [S.step]
    split
    · rename_i w hw
      split
      · rcases send_sent { s with waits := s.waits.eraseIdx k } w.idx with h' | ⟨m', d', h1, h2, h3⟩
        · rw [h']; exact ⟨o, d, h, Int.le_refl _⟩
        · rw [h3]
          by_cases hi : w.idx = i
          · simp only [hi] at h1 ⊢
            rw [h] at h1
            simp only [Option.some.injEq, Slot.mk.injEq] at h1
            exact ⟨none, d', by simp [hlen], by rw [h1.2]; exact Int.le_refl _⟩
          · exact ⟨o, d, by simp only [List.getElem?_set_ne hi]; exact h, Int.le_refl _⟩
      · exact ⟨o, d, h, Int.le_refl _⟩
    · exact ⟨o, d, h, Int.le_refl _⟩
  | add t m' => exact ⟨o, d, by simp only [S.step, S.add]; rw [List.getElem?_append_left hlen]; exact h, Int.le_refl _⟩
  | cancelAll => exact ⟨none, d, by simp [S.step, S.cancelAll, h], Int.le_refl _⟩
  | cancel j =>
    simp only [S.step, S.cancel]
    split
    · rename_i y hy
      by_cases hj : j = i
      · subst hj
        rw [h] at hy; cases hy
        exact ⟨none, d, by simp [hlen], Int.le_refl _⟩
      · exact ⟨o, d, by simp only [List.getElem?_set_ne hj]; exact h, Int.le_refl _⟩
    · exact ⟨o, d, h, Int.le_refl _⟩
  | update j t m' =>
    have hne : j ≠ i := by rintro rfl; exact hr (.inl ⟨_, _, rfl⟩)
    refine ⟨o, d, ?_, Int.le_refl _⟩
    simp only [S.step, S.update]
    split
    · simp only [List.getElem?_set_ne hne]; exact h
    · exact h
  | setMsg j m' =>
    simp only [S.step, S.setMsg]
    split
    · rename_i y hy
      by_cases hj : j = i
      · subst hj
        rw [h] at hy; cases hy
        exact ⟨some m', d, by simp [hlen], Int.le_refl _⟩
      · exact ⟨o, d, by simp only [List.getElem?_set_ne hj]; exact h, Int.le_refl _⟩
    · exact ⟨o, d, h, Int.le_refl _⟩
  | move j t =>
    have hne : j ≠ i := by rintro rfl; exact hr (.inr ⟨_, rfl⟩)
    refine ⟨o, d, ?_, Int.le_refl _⟩
    simp only [S.step, S.move]
    split
    · simp only [List.getElem?_set_ne hne]; exact h
    · exact h
  | delay j n =>
    simp only [S.step, S.delay]
    split
    · rename_i y hy
      split
      · exact ⟨o, d, h, Int.le_refl _⟩
      · by_cases hj : j = i
        · subst hj
          rw [h] at hy; cases hy
          exact ⟨o, d + n, by simp [hlen], by have := hd n rfl; omega⟩
        · exact ⟨o, d, by simp only [List.getElem?_set_ne hj]; exact h, Int.le_refl _⟩
    · exact ⟨o, d, h, Int.le_refl _⟩

theorem due_run {pre : List Ev} {e : Ev} {i : Nat} {t : Int} (h : Sets pre e i t) (mid : List Ev)
    (hr : ∀ x ∈ mid, ¬ Resets x i) (hd : ∀ n, .delay i n ∈ mid → 0 ≤ n) :
    ∃ o d, (run (pre ++ e :: mid)).slots[i]? = some ⟨o, d⟩ ∧ t ≤ d := by
  induction mid using snoc_ind with
  | h0 =>
    rw [run_snoc]
    have hl := len_run pre
    cases e with
    | add t' m' =>
      obtain ⟨h1, rfl⟩ := h
      refine ⟨some m', t, ?_, Int.le_refl _⟩
      simp only [S.step, S.add]
      rw [List.getElem?_append_right (by omega), h1, ← hl]
      simp
    | update j t' m' =>
      obtain ⟨rfl, h1, rfl⟩ := h
      have hb : j < (run pre).slots.length := by omega
      refine ⟨some m', t, ?_, Int.le_refl _⟩
      simp only [S.step, S.update, List.getElem?_eq_getElem hb]
      simp [hb]
    | move j t' =>
      obtain ⟨rfl, h1, rfl⟩ := h
      have hb : j < (run pre).slots.length := by omega
      refine ⟨((run pre).slots[j]).msg, t, ?_, Int.le_refl _⟩
      simp only [S.step, S.move, List.getElem?_eq_getElem hb]
      simp [hb]
    | _ => exact h.elim
  | h1 mid x ih =>
    obtain ⟨o, d, hs, ht⟩ := ih (fun y hy => hr y (by simp [hy])) (fun n hn => hd n (by simp [hn]))
    obtain ⟨o', d', hs', hd'⟩ := due_step hs (hr x (by simp)) (fun n hn => hd n (by simp [hn]))
    refine ⟨o', d', ?_, by omega⟩
    rw [show pre ++ e :: (mid ++ [x]) = (pre ++ e :: mid) ++ [x] by simp, run_snoc]
    exact hs'

end Timers
end Verif
