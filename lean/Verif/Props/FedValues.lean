import Verif.Props.InputFilter
import Verif.Props.FedMessages
/-!
# A federate's data after a grant, and its wake-up times: C14, C16 and C42 at the federate level
-/
namespace Verif.FedData
open Verif.Input (accepted covered Timely Plain IsLatest shown)

/-! ## Movement of all interfaces -/

theorem fill_input (m : Move) (f : FedData) (t : Time) (k : Nat) (h : Int) (i : Input) (hk : f.inputs[k]? = some (h, i)) :
    (f.fillEventVector m t).inputs[k]? = some (h, (m.input i t).1) ∧
    ((m.input i t).2 = true → h ∈ (f.fillEventVector m t).events) := by
  constructor
  · unfold fillEventVector
    simp only [List.getElem?_map, hk, Option.map_some]
  · intro hu
    unfold fillEventVector
    simp only [List.mem_map, List.mem_filter]
    exact ⟨(h, m.input i t), ⟨⟨(h, i), List.mem_of_getElem? hk, rfl⟩, hu⟩, rfl⟩

theorem fill_events (m : Move) (f : FedData) (t : Time) (h : Int) (hm : h ∈ (f.fillEventVector m t).events) :
    ∃ i, (h, i) ∈ f.inputs ∧ (m.input i t).2 = true := by
  unfold fillEventVector at hm
  simp only [List.mem_map, List.mem_filter] at hm
  obtain ⟨_, ⟨⟨⟨h', i⟩, hi, rfl⟩, hu⟩, rfl⟩ := hm
  exact ⟨i, hi, hu⟩

theorem fill_endpoint (m : Move) (f : FedData) (t : Time) (k : Nat) (h : Int) (e : Endpoint) (hk : f.endpoints[k]? = some (h, e)) :
    (f.fillEventVector m t).endpoints[k]? = some (h, (m.endpoint e t).1) := by
  unfold fillEventVector
  simp only [List.getElem?_map, hk, Option.map_some]

theorem update_data_plain (f : FedData) (it : Bool) (T send next : Time) :
    f.updateDataForTimeReturn false it T send next .noIterations =
      fillEventVector (if T < next || f.wait then .inclusive else .upTo)
        { f with granted := T, allowedSend := send, iterating := it } T := rfl

theorem accepted_snoc_update (i : Input) (h : GHandle) (ops : List Input.Op) (o : Input.Op)
    (ho : (∃ T, o = .upTo T) ∨ ∃ T, o = .inclusive T) : accepted i h (ops ++ [o]) = accepted i h ops := by
  induction ops generalizing i with
  | nil => rcases ho with ⟨T, rfl⟩ | ⟨T, rfl⟩ <;> rfl
  | cons a as ih => rw [List.cons_append, Input.accepted_cons, Input.accepted_cons i h a as, ih]

theorem timely_snoc_update (ops : List Input.Op) (o : Input.Op) (ho : ∀ h t it d, o ≠ .add h t it d) (ht : Timely ops) :
    Timely (ops ++ [o]) := by
  intro pre h t it d post heq
  rcases List.eq_nil_or_concat post with rfl | ⟨post', x, rfl⟩
  · have := List.append_inj_right' heq rfl
    simp only [List.cons.injEq, and_true] at this
    exact absurd this (ho h t it d)
  · rw [List.concat_eq_append] at heq
    have : ops = pre ++ Input.Op.add h t it d :: post' := by
      have h1 : ops ++ [o] = (pre ++ Input.Op.add h t it d :: post') ++ [x] := by rw [heq]; simp
      exact List.append_inj_left' h1 rfl
    exact ht pre h t it d post' this

/-! ## C14: the data seen after a time request -/

/-- C14 (federate): when a time request is answered with `T`, every input of the federate shows, for every source, the
latest of the values accepted from it that are stamped before `T` - or up to and including `T` when the grant came before
the requested time or the federate waits for the current time - together with those already passed earlier. -/
theorem C14_after_grant (f : FedData) (T send next : Time) (it : Bool) (k : Nat) (h : Int) (i0 : Input) (ops : List Input.Op)
    (hs : i0.srcs = []) (hq : i0.queued = 0) (hpl : ∀ o ∈ ops, Plain o) (ht : Timely ops)
    (hk : f.inputs[k]? = some (h, i0.run ops)) :
    ∃ i', (f.updateDataForTimeReturn false it T send next .noIterations).inputs[k]? = some (h, i') ∧
      ∀ src r, IsLatest ((accepted i0 src ops).filter fun r =>
          covered ops r.time || (if T < next || f.wait then decide (r.time ≤ T) else decide (r.time < T))) r →
        i'.shown src = some r.data := by
  rw [update_data_plain]
  refine ⟨_, (fill_input _ { f with granted := T, allowedSend := send, iterating := it } T k h (i0.run ops) hk).1, ?_⟩
  intro src r hr
  by_cases hc : (T < next || f.wait) = true
  · rw [if_pos hc]
    simp only [hc, if_true] at hr
    show ((i0.run ops).updateTimeInclusive T).1.shown src = _
    have hrun : (i0.run (ops ++ [.inclusive T])) = ((i0.run ops).updateTimeInclusive T).1 := by rw [Input.run_append]; rfl
    rw [← hrun]
    refine Input.C14_value_is_latest i0 hs hq _ ?_ (timely_snoc_update ops _ (by simp) ht) src r ?_
    · intro o ho
      rcases List.mem_append.mp ho with ho | ho
      · exact hpl o ho
      · simp only [List.mem_singleton] at ho; rw [ho]; trivial
    · rw [accepted_snoc_update i0 src ops _ (.inr ⟨T, rfl⟩)]
      simpa [covered, Input.passes] using hr
  · rw [if_neg hc]
    simp only [hc] at hr
    show ((i0.run ops).updateTimeUpTo T).1.shown src = _
    have hrun : (i0.run (ops ++ [.upTo T])) = ((i0.run ops).updateTimeUpTo T).1 := by rw [Input.run_append]; rfl
    rw [← hrun]
    refine Input.C14_value_is_latest i0 hs hq _ ?_ (timely_snoc_update ops _ (by simp) ht) src r ?_
    · intro o ho
      rcases List.mem_append.mp ho with ho | ho
      · exact hpl o ho
      · simp only [List.mem_singleton] at ho; rw [ho]; trivial
    · rw [accepted_snoc_update i0 src ops _ (.inl ⟨T, rfl⟩)]
      simpa [covered, Input.passes] using hr

/-- C19 (federate): after the same answer every endpoint is in the state reached by the matching time update, so the
visible messages are those before `T`, or up to `T` in the inclusive case. -/
theorem C19_after_grant (f : FedData) (T send next : Time) (it : Bool) (k : Nat) (h : Int) (e0 : Endpoint) (ops : List Endpoint.Op)
    (hf : Endpoint.Fresh e0) (ht : Endpoint.Timely ops) (hk : f.endpoints[k]? = some (h, (e0.run ops).1)) :
    ∃ e', (f.updateDataForTimeReturn false it T send next .noIterations).endpoints[k]? = some (h, e') ∧
      Served (fun t => if T < next || f.wait then decide (t ≤ T) else decide (t < T)) e' := by
  rw [update_data_plain]
  refine ⟨_, fill_endpoint _ { f with granted := T, allowedSend := send, iterating := it } T k h _ hk, ?_⟩
  have htl : ∀ o : Endpoint.Op, (∀ m, o ≠ .add m) → Endpoint.Timely (ops ++ [o]) := by
    intro o ho pre m post heq
    rcases List.eq_nil_or_concat post with rfl | ⟨post', x, rfl⟩
    · have := List.append_inj_right' heq rfl
      simp only [List.cons.injEq, and_true] at this
      exact absurd this (ho m)
    · rw [List.concat_eq_append] at heq
      have : ops = pre ++ Endpoint.Op.add m :: post' := by
        have h1 : ops ++ [o] = (pre ++ Endpoint.Op.add m :: post') ++ [x] := by rw [heq]; simp
        exact List.append_inj_left' h1 rfl
      exact ht pre m post' this
  by_cases hc : (T < next || f.wait) = true
  · simp only [hc, if_true]
    exact ⟨e0, ops ++ [.inclusive T], hf, htl _ (by simp), fun t => by rw [Endpoint.visible_snoc], by rw [Endpoint.run_snoc]; rfl⟩
  · simp only [hc]
    exact ⟨e0, ops ++ [.upTo T], hf, htl _ (by simp), fun t => by rw [Endpoint.visible_snoc]; simp, by rw [Endpoint.run_snoc]; rfl⟩

/-! ## C42: update notifications -/

theorem moved_reports {i : Input} {oc : Bool} {g : Src → Src × List DRec × Bool}
    (hf : ∀ s, Input.Consumes oc s (g s)) (src : GHandle) (hne : (i.moved g).shown src ≠ i.shown src) :
    i.srcs.any (fun s => (g s).2.2) = true := by
  rw [List.any_eq_true]
  unfold shown at hne
  rw [Input.moved_slot (fun s _ => hf s)] at hne
  cases hs : i.slot src with
  | none => rw [hs] at hne; exact absurd rfl hne
  | some s =>
    refine ⟨s, (Input.slot_some hs).1, ?_⟩
    rw [hs] at hne
    have hc : (g s).1.cur ≠ s.cur := hne
    cases hl : (g s).2.1.getLast? with
    | none => rw [((hf s).keep (List.getLast?_eq_none_iff.1 hl)).1] at hc; exact absurd rfl hc
    | some u =>
      obtain ⟨q, h1, h2⟩ := (hf s).upd u hl
      rw [h2]
      rw [h1] at hc
      revert hc
      unfold Input.updateData
      repeat' split
      all_goals first | exact fun _ => rfl | exact fun h => absurd rfl h

theorem move_reports (m : Move) (i : Input) (T : Time) (src : GHandle) (hne : (m.input i T).1.shown src ≠ i.shown src) :
    (m.input i T).2 = true := by
  cases m with
  | upTo =>
    show (i.updateTimeUpTo T).2 = true
    have hne : (i.updateTimeUpTo T).1.shown src ≠ _ := hne
    rw [Input.updateTimeUpTo_eq] at hne ⊢
    exact moved_reports (fun s => Input.consumes_upTo _ _ s) src hne
  | inclusive =>
    show (i.updateTimeInclusive T).2 = true
    have hne : (i.updateTimeInclusive T).1.shown src ≠ _ := hne
    rw [Input.updateTimeInclusive_eq] at hne ⊢
    exact moved_reports (fun s => Input.consumes_inclusive _ _ s) src hne
  | nextIteration =>
    show (i.updateTimeNextIteration T).2 = true
    have hne : (i.updateTimeNextIteration T).1.shown src ≠ _ := hne
    rw [Input.updateTimeNextIteration_eq] at hne ⊢
    exact moved_reports (fun s => Input.srcNextIter_consumes _ _ s) src hne

/-- C42 (complete): whatever the history, the kind of request and the answer, an input for which the value of some
source changed by a grant is in the list of updated inputs given to the user. -/
theorem C42_changed_inputs_are_listed (f : FedData) (halted it : Bool) (T send next : Time) (req : IterReq) (k : Nat) (h : Int) (i i' : Input)
    (hk : f.inputs[k]? = some (h, i)) (src : GHandle)
    (hk' : (f.updateDataForTimeReturn halted it T send next req).inputs[k]? = some (h, i')) (hne : i'.shown src ≠ i.shown src) :
    h ∈ (f.updateDataForTimeReturn halted it T send next req).events := by
  have hcase : ∀ f1 : FedData, f1.inputs = f.inputs → ∀ (om : Option Move) (t : Time),
      (match om with | some m => fillEventVector m f1 t | none => f1).inputs[k]? = some (h, i') →
      h ∈ (match om with | some m => fillEventVector m f1 t | none => f1).events := by
    intro f1 h1 om t hk1
    cases om with
    | none =>
      dsimp only at hk1
      rw [h1, hk] at hk1
      simp only [Option.some.injEq, Prod.mk.injEq, true_and] at hk1
      rw [hk1] at hne
      exact absurd rfl hne
    | some m =>
      dsimp only at hk1 ⊢
      have hf := fill_input m f1 t k h i (by rw [h1]; exact hk)
      rw [hf.1] at hk1
      simp only [Option.some.injEq, Prod.mk.injEq, true_and] at hk1
      refine hf.2 (move_reports m i t src ?_)
      rw [hk1]; exact hne
  unfold updateDataForTimeReturn at hk' ⊢
  dsimp only at hk' ⊢
  exact hcase _ (by split <;> rfl) _ _ hk'

/-- C42 (exact under change detection): with only-update-on-change set, a listed input is one of the federate's inputs and its
value from some source did change. -/
theorem C42_listed_inputs_changed (f : FedData) (m : Move) (T : Time) (h : Int) (hm : h ∈ (f.fillEventVector m T).events)
    (hi : ∀ p ∈ f.inputs, Input.Inv p.2 ∧ p.2.onlyChange = true) :
    ∃ i, (h, i) ∈ f.inputs ∧ ∃ src, (m.input i T).1.shown src ≠ i.shown src := by
  obtain ⟨i, hmem, hu⟩ := fill_events m f T h hm
  refine ⟨i, hmem, ?_⟩
  have := hi _ hmem
  cases m with
  | upTo => exact (Input.C18_reported_iff_changed i this.1 this.2 (.upTo T) (.inl ⟨T, rfl⟩)).mp hu
  | inclusive => exact (Input.C18_reported_iff_changed i this.1 this.2 (.inclusive T) (.inr (.inl ⟨T, rfl⟩))).mp hu
  | nextIteration => exact (Input.C18_reported_iff_changed i this.1 this.2 (.nextIteration T) (.inr (.inr ⟨T, rfl⟩))).mp hu

/-! ## C16: wake-up times -/

theorem fold_min {α : Type} (g : α → Time) (l : List α) (a : Time) :
    let r := l.foldl (fun first x => if g x < first then g x else first) a
    r ≤ a ∧ (∀ x ∈ l, r ≤ g x) ∧ (r = a ∨ ∃ x ∈ l, r = g x) := by
  induction l generalizing a with
  | nil => exact ⟨Int.le_refl _, by simp, .inl rfl⟩
  | cons x xs ih =>
    dsimp only at ih ⊢
    rw [List.foldl_cons]
    obtain ⟨h1, h2, h3⟩ := ih (if g x < a then g x else a)
    have hle : (if g x < a then g x else a) ≤ a ∧ (if g x < a then g x else a) ≤ g x := by split <;> omega
    refine ⟨by omega, ?_, ?_⟩
    · intro y hy
      rcases List.mem_cons.mp hy with rfl | hy
      · omega
      · exact h2 y hy
    · rcases h3 with h3 | ⟨y, hy, h3⟩
      · by_cases hlt : g x < a
        · rw [if_pos hlt] at h3; exact .inr ⟨x, by simp, by rw [if_pos hlt]; exact h3⟩
        · rw [if_neg hlt] at h3; left; rw [if_neg hlt]; exact h3
      · exact .inr ⟨y, List.mem_cons_of_mem _ hy, h3⟩

/-- C16 (messages): the wake-up time for messages is the earliest time at which a held message can be handed out - its own
time, or the current time if it is late - and the maximum time when there is none. -/
theorem C16_next_message_time (f : FedData) (hs : ∀ p ∈ f.endpoints, ∃ e0 ops, Endpoint.Fresh e0 ∧ p.2 = (e0.run ops).1)
    (hg : f.granted ≤ maxVal) :
    (∀ p ∈ f.endpoints, ∀ x ∈ p.2.queue, f.nextMessageTime ≤ max x.time f.granted) ∧
    (f.nextMessageTime = maxVal ∨ ∃ p ∈ f.endpoints, ∃ x ∈ p.2.queue, f.nextMessageTime = max x.time f.granted) := by
  have h := fold_min (fun e : Int × Endpoint => if e.2.firstMessageTime < f.granted then f.granted else e.2.firstMessageTime)
    f.endpoints maxVal
  dsimp only at h
  obtain ⟨h1, h2, h3⟩ := h
  change f.nextMessageTime ≤ maxVal at h1
  change ∀ x ∈ f.endpoints, f.nextMessageTime ≤ _ at h2
  change f.nextMessageTime = _ ∨ ∃ x ∈ f.endpoints, f.nextMessageTime = _ at h3
  constructor
  · intro p hp x hx
    have hle := h2 p hp
    obtain ⟨e0, ops, hf, he⟩ := hs p hp
    have hso := Endpoint.run_sorted hf ops
    rw [← he] at hso
    have hfx : p.2.firstMessageTime ≤ x.time := by
      unfold Endpoint.firstMessageTime
      cases hpq : p.2.queue with
      | nil => rw [hpq] at hx; simp at hx
      | cons y ys => rw [hpq] at hx hso; exact sorted_head hso hx
    split at hle <;> omega
  · rcases h3 with h3 | ⟨p, hp, h3⟩
    · exact .inl h3
    · cases hpq : p.2.queue with
      | nil =>
        have : p.2.firstMessageTime = maxVal := by unfold Endpoint.firstMessageTime; rw [hpq]
        rw [this, if_neg (by omega)] at h3
        exact .inl h3
      | cons y ys =>
        have : p.2.firstMessageTime = y.time := by unfold Endpoint.firstMessageTime; rw [hpq]
        rw [this] at h3
        refine .inr ⟨p, hp, y, by rw [hpq]; simp, ?_⟩
        rw [h3]
        split <;> omega

/-- C16 (values, federate): when no held value is late, the federate's wake-up time for values is the earliest stamp
held for an interruptible input, and the maximum time when there is none. -/
theorem C16_federate_next_value (f : FedData)
    (hs : ∀ p ∈ f.inputs, ∃ i0 ops, i0.srcs = [] ∧ i0.queued = 0 ∧ p.2 = Input.run i0 ops)
    (hlate : ∀ p ∈ f.inputs, ∀ r ∈ p.2.srcs.flatMap (·.queue), f.granted ≤ r.time) (hg : f.granted ≤ maxVal) :
    (∀ p ∈ f.inputs, p.2.notInterruptible = false → ∀ r ∈ p.2.srcs.flatMap (·.queue), f.nextValueTime ≤ r.time) ∧
    (f.nextValueTime = maxVal ∨ ∃ p ∈ f.inputs, p.2.notInterruptible = false ∧ ∃ r ∈ p.2.srcs.flatMap (·.queue), f.nextValueTime = r.time) := by
  have hge : ∀ p ∈ f.inputs, f.granted ≤ p.2.nextValueTime := by
    intro p hp
    by_cases hint : p.2.notInterruptible = true
    · rw [Input.C16_not_interruptible _ hint]; exact hg
    · obtain ⟨i0, ops, h0, hq, he⟩ := hs p hp
      have := (Input.C16_next_value_time i0 h0 hq ops (by rw [← he]; simpa using hint)).2
      rw [← he] at this
      rcases this with h | ⟨r, hr, h⟩
      · rw [h]; exact hg
      · rw [← h]; exact hlate p hp r hr
  have heq : f.nextValueTime = f.inputs.foldl (fun first x => if x.2.nextValueTime < first then x.2.nextValueTime else first) maxVal := by
    unfold nextValueTime
    revert hge
    generalize maxVal = a
    induction f.inputs generalizing a with
    | nil => intro _; rfl
    | cons x xs ih =>
      intro hge
      rw [List.foldl_cons, List.foldl_cons]
      dsimp only
      rw [if_pos (hge x (by simp))]
      exact ih _ (fun p hp => hge p (List.mem_cons_of_mem _ hp))
  obtain ⟨h1, h2, h3⟩ := fold_min (fun x : Int × Input => x.2.nextValueTime) f.inputs maxVal
  rw [← heq] at h1 h2 h3
  constructor
  · intro p hp hint r hr
    obtain ⟨i0, ops, h0, hq, he⟩ := hs p hp
    have := (Input.C16_next_value_time i0 h0 hq ops (by rw [← he]; exact hint)).1
    rw [← he] at this
    have := this r hr
    have := h2 p hp
    omega
  · rcases h3 with h3 | ⟨p, hp, h3⟩
    · exact .inl h3
    · by_cases hint : p.2.notInterruptible = true
      · rw [Input.C16_not_interruptible _ hint] at h3; exact .inl h3
      · have hint : p.2.notInterruptible = false := by simpa using hint
        obtain ⟨i0, ops, h0, hq, he⟩ := hs p hp
        have := (Input.C16_next_value_time i0 h0 hq ops (by rw [← he]; exact hint)).2
        rw [← he] at this
        rcases this with h | ⟨r, hr, h⟩
        · rw [h] at h3; exact .inl h3
        · exact .inr ⟨p, hp, hint, r, hr, by rw [h3, h]⟩

/-- A federate at time 5 with a value waiting for 7 and another input with one for 9. -/
def demoValues : FedData :=
  { granted := 5
    inputs := [(1, Input.run {} [.addSource ⟨200000, 1⟩ "a" "" "", .add ⟨200000, 1⟩ 7 0 (some [1])]),
               (2, Input.run {} [.addSource ⟨200001, 1⟩ "b" "" "", .add ⟨200001, 1⟩ 9 0 (some [2]), .add ⟨200001, 1⟩ 6 0 (some [3])])] }

example : demoValues.nextValueTime = 6 := by decide

example : (demoValues.updateDataForTimeReturn false false 7 7 9 .noIterations).events = [1, 2] ∧
    ((demoValues.updateDataForTimeReturn false false 7 7 9 .noIterations).inputs.map fun p => (p.2.shown ⟨200000, 1⟩, p.2.shown ⟨200001, 1⟩)) =
      [(some [1], none), (none, some [3])] := by decide

/-- C16, defect: a value that arrived late (stamped 3 when the federate is at 5) makes the federate's wake-up time ignore
every other value waiting for that input, here one for time 7. -/
theorem C16_late_value_masks_wakeup :
    ∃ f : FedData, f.granted = 5 ∧ f.nextValueTime = maxVal ∧
      ∃ p ∈ f.inputs, p.2.notInterruptible = false ∧ (∃ ops, p.2 = Input.run {} ops) ∧
        ∃ r ∈ p.2.srcs.flatMap (·.queue), r.time = 7 :=
  ⟨{ granted := 5
     inputs := [(1, Input.run {} [.addSource ⟨200000, 1⟩ "a" "" "", .inclusive 5, .add ⟨200000, 1⟩ 3 0 (some [1]), .add ⟨200000, 1⟩ 7 0 (some [2])])] },
   rfl, by decide, _, List.mem_singleton.mpr rfl, by decide, ⟨_, rfl⟩, ⟨7, 0, [2]⟩, by decide, rfl⟩

end Verif.FedData
