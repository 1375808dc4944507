import Verif.Lemmas.QueryInv
/-! Steps of a node, for C57. -/
namespace Verif.Query

variable {net : Net} {i : Nat}

theorem kids_fed (hok : net.Ok) {v : Node} (hv : net.kind v ≠ .broker) (hf : net.kind v ≠ .fed) : ∀ u ∈ net.kids v, net.kind u = .fed := by
  intro u hu
  rw [mem_kids] at hu
  obtain ⟨h1, h2, h3⟩ := hu
  rw [hok.fed u h2 h1, h3]
  cases hk : net.kind v with
  | broker => exact absurd hk hv
  | core => rfl
  | fed => exact absurd hk hf

theorem fed_kids (hok : net.Ok) {v : Node} (hv : net.kind v = .fed) : net.kids v = [] := by
  rw [List.eq_nil_iff_forall_not_mem]
  intro u hu
  rw [mem_kids] at hu
  exact hok.leaf u hu.2.1 hu.1 (by rw [hu.2.2]; exact hv)

theorem lists_fed (hok : net.Ok) {u : Node} (hu : net.kind u = .fed) (t : Nat) : Lists net i u (.doc u i t []) :=
  Lists.doc u t [] (by rw [fed_kids hok hu]; exact List.Perm.refl _) (fun e he => by cases he)

theorem gen_lists {v : Node} {x : Slot} (h : SlotOk net i v x) (hm : x.b.missing = []) (ha : x.b.map ≠ none) :
    Lists net i v (x.b.gen v i) := by
  unfold Builder.gen
  cases hmap : x.b.map with
  | none => exact absurd hmap ha
  | some t =>
    obtain ⟨es, h1, h2, h3⟩ := h.some t.1 t.2 hmap
    simp only
    rw [h1]
    rw [hm] at h2
    simp only [List.map_nil, List.append_nil] at h2
    exact Lists.doc v t.1 es h2 h3

/-- the builder of a new round -/
def round (net : Net) (busy : Node → Bool) (now v i : Nat) (b : Builder) : Builder :=
  { b with missing := holders net (asks net busy v),
           map := some (now, (((net.kids v).filter (fun u => !waits net busy v u)).map (fun u => (u, Ans.doc u i now []))).map
                  (fun e => (net.kind e.1, e.2))) }

def downs (net : Net) (busy : Node → Bool) (v i : Nat) : List Out := (number 2 (asks net busy v)).map (fun p => Out.down p.2 i p.1)

theorem holders_nil {l : List Node} : holders net l = [] ↔ l = [] := by
  rw [← List.length_eq_zero_iff, holders_length, List.length_eq_zero_iff]

theorem perm_split (p : Node → Bool) (l : List Node) : ((l.filter (fun u => !p u)) ++ l.filter p).Perm l := by
  induction l with
  | nil => exact List.Perm.refl _
  | cons a l ih =>
    cases h : p a with
    | true =>
      simp only [List.filter_cons, h]
      simp only [Bool.not_true]
      exact List.perm_middle.trans (List.Perm.cons a ih)
    | false =>
      simp only [List.filter_cons, h]
      simp only [Bool.not_false, if_true, List.cons_append]
      exact List.Perm.cons a ih

theorem holders_codes (l : List Node) : (holders net l).map (·.2.2) = l := by
  unfold holders
  rw [List.map_map]
  exact number_snd 2 l

theorem holders_keys (l : List Node) : ((holders net l).map (·.1)).Nodup := by
  unfold holders
  rw [List.map_map]
  exact number_nodup 2 l

theorem round_gaps (busy : Node → Bool) (now v i : Nat) (b : Builder) : (round net busy now v i b).gaps = layout net busy v := by
  unfold round Builder.gaps layout holders
  simp only [List.map_map]
  have : ((fun p : Nat × Kind × Node => (p.1, p.2.2)) ∘ fun p : Nat × Node => (p.1, net.kind p.2, p.2)) = id := by funext p; rfl
  rw [this, List.map_id]

/-- a slot with a new round -/
theorem round_ok (hok : net.Ok) {v : Node} (hf : net.kind v ≠ .fed) {x : Slot} (h : SlotOk net i v x) (busy : Node → Bool) (now c : Nat)
    (reqs : List Dest) (hr : reqs = [] ↔ asks net busy v = []) (hu : ∀ q, Dest.user q ∈ reqs → net.kind v = .broker)
    (hup : ∀ n, Dest.up n ∈ reqs → v ∈ net.kids (net.par v)) :
    SlotOk net i v { x with b := { round net busy now v i x.b with code := c }, reqs := reqs } where
  none := by intro hn; simp [round] at hn
  some := by
    intro t l hl
    simp only [round, Option.some.injEq, Prod.mk.injEq] at hl
    refine ⟨_, hl.2.symm, ?_, ?_⟩
    · simp only [List.map_map, round]
      rw [holders_codes]
      have : ((fun x : Node × Ans => x.1) ∘ fun u => (u, Ans.doc u i now [])) = id := by funext u; rfl
      rw [this, List.map_id]
      exact perm_split _ _
    · intro e he
      obtain ⟨u, hu, rfl⟩ := List.mem_map.1 he
      rw [List.mem_filter] at hu
      have hb : net.kind v ≠ .broker := by
        intro hb
        have := hu.2
        simp [waits, hb] at this
      exact lists_fed hok (kids_fed hok hb hf u hu.1) now
  kind := by
    intro p hp
    simp only [round, holders] at hp
    obtain ⟨q, _, rfl⟩ := List.mem_map.1 hp
    rfl
  keys := holders_keys _
  wait := by simp only [round]; rw [holders_nil]; exact hr
  user := hu
  up := fun n hn => ⟨hup n hn, hf⟩
  good := h.good

/-- the ways a query can go -/
theorem query_cases (hok : net.Ok) {v : Node} (hf : net.kind v ≠ .fed) (conn busy : Node → Bool) (hc : ∀ u, conn u = true) (now ctr : Nat)
    {x : Slot} (h : SlotOk net i v x) :
    (∃ a, x.b.query net conn busy now v i ctr = (x.b, [], a) ∧
      ((x.b.missing = [] ∧ x.b.map ≠ none ∧ a = x.b.gen v i) ∨ (x.b.missing ≠ [] ∧ a = .wait))) ∨
    (∃ a c, (net.reuse i = true → x.b.missing = []) ∧
      x.b.query net conn busy now v i ctr = ({ round net busy now v i x.b with code := c }, downs net busy v i, a) ∧
      ((asks net busy v = [] ∧ a = (round net busy now v i x.b).gen v i) ∨ (asks net busy v ≠ [] ∧ a = .wait))) := by
  have hinit : ∀ b : Builder, b.init net conn busy now v i = (round net busy now v i b, downs net busy v i) :=
    fun b => init_eq (fun hb => kids_fed hok hb hf) conn busy hc now i b
  have hcomp : ∀ b : Builder, (round net busy now v i b).completed = decide (asks net busy v = []) := by
    intro b
    unfold Builder.completed round
    simp only [Option.isSome_some, Bool.true_and]
    rw [Bool.eq_iff_iff, List.isEmpty_iff, holders_nil]
    simp
  have hfresh : ∀ b : Builder, b.code = x.b.code → (net.reuse i = true → x.b.missing = []) → ∀ o,
      o = (let r := b.init net conn busy now v i
           if r.1.completed then
             let b2 := if net.reuse i then { r.1 with code := ctr } else r.1
             (b2, r.2, b2.gen v i)
           else (r.1, r.2, .wait)) →
      (∃ a c, (net.reuse i = true → x.b.missing = []) ∧
        o = ({ round net busy now v i x.b with code := c }, downs net busy v i, a) ∧
        ((asks net busy v = [] ∧ a = (round net busy now v i x.b).gen v i) ∨ (asks net busy v ≠ [] ∧ a = .wait))) := by
    intro b hbc hr o ho
    simp only [hinit, hcomp] at ho
    have hbx : round net busy now v i b = round net busy now v i x.b := by unfold round; rw [hbc]
    by_cases ha : asks net busy v = []
    · simp only [ha, decide_true, if_true] at ho
      cases hre : net.reuse i with
      | true =>
        rw [hre] at ho
        exact ⟨_, ctr, hre ▸ hr, by rw [ho, hbx]; rfl, .inl ⟨ha, by simp only [hbx]; rfl⟩⟩
      | false =>
        rw [hre] at ho
        exact ⟨_, b.code, hre ▸ hr, by rw [ho, hbx, ← hbx]; rfl, .inl ⟨ha, by simp only [hbx]; rfl⟩⟩
    · simp only [ha, decide_false] at ho
      exact ⟨_, b.code, hr, by rw [ho, ← hbx]; rfl, .inr ⟨ha, rfl⟩⟩
  unfold Builder.query
  simp only
  by_cases hre : net.reuse i = true
  · simp only [hre, if_true]
    by_cases hcm : x.b.completed = true
    · have hm : x.b.missing = [] := by
        unfold Builder.completed at hcm
        rw [Bool.and_eq_true, List.isEmpty_iff] at hcm
        exact hcm.2
      have hmap : x.b.map ≠ none := by
        unfold Builder.completed at hcm
        rw [Bool.and_eq_true] at hcm
        intro e; rw [e] at hcm; cases hcm.1
      simp only [hcm, if_true]
      by_cases hct : ctr = x.b.code
      · simp only [hct, if_true]
        exact .inl ⟨_, rfl, .inl ⟨hm, hmap, rfl⟩⟩
      · simp only [hct, if_false]
        right
        have := hfresh x.b.reset rfl (fun _ => hm) _ rfl
        simp only [hre, if_true] at this
        exact this
    · simp only [hcm]
      by_cases ha : x.b.active = true
      · simp only [ha, if_true]
        refine .inl ⟨_, rfl, .inr ⟨?_, rfl⟩⟩
        intro hm
        apply hcm
        unfold Builder.completed
        rw [hm]
        unfold Builder.active at ha
        simp [ha]
      · simp only [ha]
        right
        have hn : x.b.map = none := by
          unfold Builder.active at ha
          cases hmm : x.b.map with
          | none => rfl
          | some t => rw [hmm] at ha; exact absurd rfl ha
        have := hfresh x.b rfl (fun _ => h.none hn) _ rfl
        simp only [hre, if_true] at this
        exact this
  · simp only [hre]
    right
    have := hfresh x.b rfl (fun e => absurd e hre) _ rfl
    simp only [hre] at this
    exact this

end Verif.Query
