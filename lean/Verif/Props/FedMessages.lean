import Verif.Props.Endpoints
/-!
# Messages of a federate: property C33
-/
namespace Verif.FedData
open Verif.Endpoint (Before Fresh Timely visible Sorted)

/-! ## The search loop -/

theorem earliest_spec (l : List (Int × Endpoint)) (n : Nat) (t : Time) (idx : Option Nat) :
    let r := earliest l n t idx
    r.1 ≤ t ∧ (∀ p ∈ l, r.1 ≤ p.2.firstMessageTime) ∧
    ((r = (t, idx)) ∨ (∃ k, k < l.length ∧ r.2 = some (n + k) ∧ r.1 < t ∧ ∃ p, l[k]? = some p ∧ p.2.firstMessageTime = r.1)) := by
  induction l generalizing n t idx with
  | nil => exact ⟨Int.le_refl _, by simp, .inl rfl⟩
  | cons e es ih =>
    dsimp only
    unfold earliest
    split
    · rename_i hlt
      have := ih (n + 1) e.2.firstMessageTime (some n)
      dsimp only at this
      obtain ⟨h1, h2, h3⟩ := this
      refine ⟨by omega, ?_, ?_⟩
      · intro p hp
        rcases List.mem_cons.mp hp with rfl | hp
        · exact h1
        · exact h2 p hp
      · right
        rcases h3 with h3 | ⟨k, hk, hr, hlt', p, hp, hpt⟩
        · exact ⟨0, by simp, by rw [h3]; rfl, by rw [h3]; exact hlt, e, rfl, by rw [h3]⟩
        · exact ⟨k + 1, by simpa using hk, by rw [hr]; congr 1; omega, by omega, p, by simpa using hp, hpt⟩
    · rename_i hge
      have := ih (n + 1) t idx
      dsimp only at this
      obtain ⟨h1, h2, h3⟩ := this
      refine ⟨h1, ?_, ?_⟩
      · intro p hp
        rcases List.mem_cons.mp hp with rfl | hp
        · omega
        · exact h2 p hp
      · rcases h3 with h3 | ⟨k, hk, hr, hlt', p, hp, hpt⟩
        · exact .inl h3
        · exact .inr ⟨k + 1, by simpa using hk, by rw [hr]; congr 1; omega, hlt', p, by simpa using hp, hpt⟩

/-- **C33** (one endpoint).  Receiving from an endpoint takes the message that endpoint delivers, and touches no other. -/
theorem C33_receive_from (f : FedData) (h : Int) (hn : (f.endpoints.map (·.1)).Nodup) :
    (∀ e, (h, e) ∈ f.endpoints → (f.receive h).2 = (e.getMessage f.granted).2 ∧
      (f.receive h).1.endpoints = f.endpoints.map (fun p => if p.1 = h then (h, (e.getMessage f.granted).1) else p)) ∧
    ((¬ ∃ e, (h, e) ∈ f.endpoints) → f.receive h = (f, none)) := by
  have key : ∀ l : List (Int × Endpoint), (l.map (·.1)).Nodup →
      (∀ e, (h, e) ∈ l → (receiveFrom h f.granted l).2 = (e.getMessage f.granted).2 ∧
        (receiveFrom h f.granted l).1 = l.map (fun p => if p.1 = h then (h, (e.getMessage f.granted).1) else p)) ∧
      ((¬ ∃ e, (h, e) ∈ l) → receiveFrom h f.granted l = (l, none)) := by
    intro l
    induction l with
    | nil => intro _; exact ⟨fun e he => (by cases he), fun _ => rfl⟩
    | cons x xs ih =>
      intro hn
      obtain ⟨k, e0⟩ := x
      simp only [List.map_cons, List.nodup_cons] at hn
      obtain ⟨ih1, ih2⟩ := ih hn.2
      constructor
      · intro e he
        unfold receiveFrom
        by_cases hk : k = h
        · subst hk
          have : e = e0 := by
            rcases List.mem_cons.mp he with e1 | he
            · exact (Prod.mk.inj e1).2
            · exact absurd (List.mem_map_of_mem (f := (·.1)) he) hn.1
          subst this
          simp only [if_true, List.map_cons]
          refine ⟨trivial, ?_⟩
          congr 1
          rw [List.map_congr_left (g := id)]
          · simp
          · intro p hp
            have : p.1 ≠ k := fun hh => hn.1 (by rw [← hh]; exact List.mem_map_of_mem (f := (·.1)) hp)
            simp [this]
        · have he' : (h, e) ∈ xs := by
            rcases List.mem_cons.mp he with e1 | he
            · exact absurd (Prod.mk.inj e1).1.symm hk
            · exact he
          simp only [hk, if_false, List.map_cons]
          exact ⟨(ih1 e he').1, by rw [(ih1 e he').2]⟩
      · intro hex
        unfold receiveFrom
        have hk : k ≠ h := fun hh => hex ⟨e0, by rw [hh]; exact List.mem_cons_self⟩
        rw [if_neg hk, ih2 (fun ⟨e, he⟩ => hex ⟨e, List.mem_cons_of_mem _ he⟩)]
  obtain ⟨k1, k2⟩ := key f.endpoints hn
  exact ⟨k1, fun hex => by unfold receive; rw [k2 hex]⟩

/-- Everything `receiveAny` can do. -/
theorem receiveAny_cases (f : FedData) :
    ((f.receiveAny = (f, none, none)) ∧ ((∀ p ∈ f.endpoints, maxVal ≤ p.2.firstMessageTime) ∨
        (∀ p ∈ f.endpoints, f.granted < p.2.firstMessageTime))) ∨
    (∃ k h e, f.endpoints[k]? = some (h, e) ∧ e.firstMessageTime ≤ f.granted ∧ e.firstMessageTime < maxVal ∧
      (∀ p ∈ f.endpoints, e.firstMessageTime ≤ p.2.firstMessageTime) ∧
      f.receiveAny = ({ f with endpoints := f.endpoints.set k (h, (e.getMessage f.granted).1) },
        (e.getMessage f.granted).2, if (e.getMessage f.granted).2.isSome then some h else none)) := by
  have hs := earliest_spec f.endpoints 0 maxVal none
  dsimp only at hs
  obtain ⟨h1, h2, h3⟩ := hs
  unfold receiveAny
  rcases h3 with h3 | ⟨k, hk, hr, hlt, ⟨h, e⟩, hp, hpt⟩
  · left
    rw [h3] at h2 ⊢
    exact ⟨rfl, .inl h2⟩
  · have he : earliest f.endpoints 0 maxVal none = ((earliest f.endpoints 0 maxVal none).1, some k) := by
      rw [Nat.zero_add] at hr; rw [← hr]
    rw [he]
    dsimp only
    rw [← hpt]
    dsimp only at hpt ⊢
    by_cases hg : e.firstMessageTime ≤ f.granted
    · right
      rw [if_pos hg, hp]
      refine ⟨k, h, e, by first | exact hp | rfl, hg, by omega, ?_, rfl⟩
      intro p hp'; rw [hpt]; exact h2 p hp'
    · left
      rw [if_neg hg]
      refine ⟨rfl, .inr ?_⟩
      intro p hp'
      have := h2 p hp'
      omega

/-! ## Specification -/

/-- The endpoint's state was reached by some timely history of calls whose last time update made `vis` visible. -/
def Served (vis : Time → Bool) (e : Endpoint) : Prop :=
  ∃ e0 ops, Fresh e0 ∧ Timely ops ∧ (∀ t, visible ops t = vis t) ∧ e = (e0.run ops).1

theorem served_sorted {vis : Time → Bool} {e : Endpoint} (h : Served vis e) : Sorted e.queue := by
  obtain ⟨e0, ops, hf, _, _, rfl⟩ := h; exact Endpoint.run_sorted hf ops

theorem sorted_head {m x : EMsg} {ms : List EMsg} (hs : Sorted (m :: ms)) (hx : x ∈ m :: ms) : m.time ≤ x.time := by
  rcases List.mem_cons.mp hx with rfl | hx
  · exact Int.le_refl _
  · rcases (Endpoint.msgLt_false_iff x m).mp ((List.pairwise_cons.mp hs).1 x hx) with h1 | ⟨h1, _⟩ <;> omega

/-- C33 (which message): a message returned by `receiveAny` was held by the endpoint whose handle is reported, is not later than the
granted time nor than any message held at any endpoint, and is the next in that endpoint's own order; that
endpoint loses exactly that message and every other endpoint is unchanged. -/
theorem C33_receiveAny_earliest {f : FedData} {vis : Time → Bool} (hs : ∀ p ∈ f.endpoints, Served vis p.2)
    {f' : FedData} {m : EMsg} {oh : Option Int} (hr : f.receiveAny = (f', some m, oh)) :
    m.time ≤ f.granted ∧
    (∀ p ∈ f.endpoints, ∀ x ∈ p.2.queue, m.time ≤ x.time) ∧
    ∃ k h e e', f.endpoints[k]? = some (h, e) ∧ oh = some h ∧ e.queue = m :: e'.queue ∧
      (∀ x ∈ e.queue, ¬ Before x m) ∧ f' = { f with endpoints := f.endpoints.set k (h, e') } := by
  rcases receiveAny_cases f with ⟨h, _⟩ | ⟨k, h, e, hk, hle, _, hmin, heq⟩
  · rw [h] at hr; simp at hr
  · rw [heq] at hr
    simp only [Prod.mk.injEq] at hr
    obtain ⟨hf', hm, hoh⟩ := hr
    obtain ⟨ha, ms, hq, ht, hr⟩ := Endpoint.getMessage_some hm
    have hmem : (h, e) ∈ f.endpoints := List.mem_of_getElem? hk
    have hse := served_sorted (hs _ hmem)
    simp only at hse
    have hfirst : e.firstMessageTime = m.time := by unfold Endpoint.firstMessageTime; rw [hq]
    refine ⟨ht, ?_, k, h, e, (e.getMessage f.granted).1, hk, ?_, ?_, ?_, hf'.symm⟩
    · intro p hp x hx
      have h1 := hmin p hp
      rw [hfirst] at h1
      have h2 : p.2.firstMessageTime ≤ x.time := by
        unfold Endpoint.firstMessageTime
        have hps := served_sorted (hs p hp)
        cases hpq : p.2.queue with
        | nil => rw [hpq] at hx; simp at hx
        | cons y ys => rw [hpq] at hx hps; exact sorted_head hps hx
      omega
    · rw [← hoh, hm]; rfl
    · rw [hr]; exact hq
    · intro x hx
      rw [Endpoint.not_before_iff]
      rw [hq] at hx hse
      rcases List.mem_cons.mp hx with rfl | hx
      · exact Endpoint.msgLt_irrefl _
      · exact (List.pairwise_cons.mp hse).1 x hx

/-- C33 (when): `receiveAny` returns a message exactly when some endpoint holds a visible one. -/
theorem C33_receiveAny_iff_due {f : FedData} {vis : Time → Bool} (hs : ∀ p ∈ f.endpoints, Served vis p.2)
    (hvis : ∀ t, vis t = true → t ≤ f.granted) (hmax : ∀ p ∈ f.endpoints, ∀ x ∈ p.2.queue, x.time < maxVal) :
    (∃ m, f.receiveAny.2.1 = some m) ↔ ∃ p ∈ f.endpoints, ∃ x ∈ p.2.queue, vis x.time = true := by
  have hget : ∀ p ∈ f.endpoints, (∃ m, (p.2.getMessage f.granted).2 = some m) ↔ ∃ x ∈ p.2.queue, vis x.time = true := by
    intro p hp
    obtain ⟨e0, ops, hf, ht, hv, he⟩ := hs p hp
    have := Endpoint.C19_read_succeeds_iff_due hf ops ht f.granted (fun t h => hvis t (by rw [← hv]; exact h))
    rw [he]
    simp only [hv] at this
    exact this
  have hmono : ∀ p ∈ f.endpoints, ∀ s t, s ≤ t → vis t = true → vis s = true := by
    intro p hp s t hst ht
    obtain ⟨e0, ops, _, _, hv, _⟩ := hs p hp
    rw [← hv] at ht ⊢
    exact Endpoint.visible_mono hst ht
  rcases receiveAny_cases f with ⟨h, hno⟩ | ⟨k, h, e, hk, hle, hlt, hmin, heq⟩
  · rw [h]
    refine ⟨fun ⟨m, hm⟩ => by simp at hm, ?_⟩
    rintro ⟨p, hp, x, hx, hv⟩
    exfalso
    have hfx : p.2.firstMessageTime ≤ x.time := by
      unfold Endpoint.firstMessageTime
      have hps := served_sorted (hs p hp)
      cases hpq : p.2.queue with
      | nil => rw [hpq] at hx; simp at hx
      | cons y ys => rw [hpq] at hx hps; exact sorted_head hps hx
    have hxm := hmax p hp x hx
    have hxg := hvis _ hv
    rcases hno with hno | hno
    · have := hno p hp; omega
    · have := hno p hp; omega
  · have hmem : (h, e) ∈ f.endpoints := List.mem_of_getElem? hk
    rw [heq]
    constructor
    · rintro ⟨m, hm⟩
      obtain ⟨x, hx, hv⟩ := (hget _ hmem).mp ⟨m, hm⟩
      exact ⟨_, hmem, x, hx, hv⟩
    · rintro ⟨p, hp, x, hx, hv⟩
      refine (hget _ hmem).mpr ?_
      have hfx : p.2.firstMessageTime ≤ x.time := by
        unfold Endpoint.firstMessageTime
        have hps := served_sorted (hs p hp)
        cases hpq : p.2.queue with
        | nil => rw [hpq] at hx; simp at hx
        | cons y ys => rw [hpq] at hx hps; exact sorted_head hps hx
      have h1 := hmin p hp
      simp only
      cases hq : e.queue with
      | nil => unfold Endpoint.firstMessageTime at hlt; rw [hq] at hlt; simp at hlt
      | cons y ys =>
        have hy : e.firstMessageTime = y.time := by unfold Endpoint.firstMessageTime; rw [hq]
        exact ⟨y, by simp, hmono p hp _ _ (by omega) hv⟩

/-- C33 (the count): the federate's total number of available messages is the number of visible ones held. -/
theorem C33_total_available {f : FedData} {vis : Time → Bool} (hs : ∀ p ∈ f.endpoints, Served vis p.2) :
    f.getQueueSize = ((f.endpoints.map fun p => p.2.queue.countP fun m => vis m.time).sum : Nat) := by
  unfold getQueueSize
  revert hs
  induction f.endpoints with
  | nil => intro _; rfl
  | cons p ps ih =>
    intro hs
    rw [List.map_cons, List.sum_cons, List.map_cons, List.sum_cons, ih fun q hq => hs q (List.mem_cons_of_mem _ hq)]
    obtain ⟨e0, ops, hf, ht, hv, he⟩ := hs p (by simp)
    have := Endpoint.C19_count_is_exact hf ops ht
    simp only [hv] at this
    rw [he, this, Int.natCast_add]

/-- Two endpoints, the second with the earlier message. -/
def demoFed : FedData :=
  { granted := 5
    endpoints := [(10, (Endpoint.run {} [.add ⟨4, [65], [1]⟩, .inclusive 5]).1),
                  (11, (Endpoint.run {} [.add ⟨3, [66], [2]⟩, .add ⟨9, [66], [3]⟩, .inclusive 5]).1)] }

theorem demoFed_served : ∀ p ∈ demoFed.endpoints, Served (fun t => decide (t ≤ 5)) p.2 := by
  intro p hp
  rcases List.mem_cons.mp hp with rfl | hp
  · exact ⟨{}, _, Endpoint.demo_fresh, Endpoint.timely_of_check (ops := [.add ⟨4, [65], [1]⟩, .inclusive 5]) (by decide), fun _ => rfl, rfl⟩
  · rcases List.mem_cons.mp hp with rfl | hp
    · exact ⟨{}, _, Endpoint.demo_fresh, Endpoint.timely_of_check (ops := [.add ⟨3, [66], [2]⟩, .add ⟨9, [66], [3]⟩, .inclusive 5]) (by decide), fun _ => rfl, rfl⟩
    · simp at hp

theorem demoFed_result : demoFed.receiveAny.2 = (some ⟨3, [66], [2]⟩, some 11) := by decide

/-- C33, boundary: without timeliness a late message at one endpoint makes `receiveAny` return nothing although another endpoint
reports an available message. -/
theorem C33_late_message_blocks_receiveAny :
    ∃ f : FedData, f.receiveAny.2.1 = none ∧ f.getQueueSize = 1 ∧
      ∀ p ∈ f.endpoints, ∃ ops, p.2 = (Endpoint.run {} ops).1 :=
  ⟨{ granted := 5
     endpoints := [(10, (Endpoint.run {} [.inclusive 5, .add ⟨2, [], []⟩]).1), (11, (Endpoint.run {} [.add ⟨4, [], []⟩, .inclusive 5]).1)] },
   by decide, by decide, by
    intro p hp
    rcases List.mem_cons.mp hp with rfl | hp
    · exact ⟨_, rfl⟩
    · rcases List.mem_cons.mp hp with rfl | hp
      · exact ⟨_, rfl⟩
      · simp at hp⟩

end Verif.FedData
