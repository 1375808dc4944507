import Verif.Model.BrokerInit
/-! Lemmas about the broker side of registration and initialization -/
namespace Verif.Init

/-! ### Counting loops and minima -/

theorem foldl_count {α : Type} (p : α → Bool) (l : List α) (n : Nat) :
    l.foldl (fun n a => if p a = true then n + 1 else n) n = n + (l.filter p).length := by
  induction l generalizing n with
  | nil => simp
  | cons a l ih =>
    rw [List.foldl_cons, ih, List.filter_cons]
    split <;> simp; omega

theorem countable_eq (b : Broker) :
    b.countable = (b.feds.filter (fun f => !f.nonCounting)).length := by
  have h := foldl_count (fun f : FedInfo => !f.nonCounting) b.feds 0
  rw [Nat.zero_add] at h
  rw [← h]
  unfold Broker.countable
  congr 1
  funext n f
  cases f.nonCounting <;> simp

theorem children_eq (b : Broker) :
    b.children = (b.brks.filter (fun k => decide (k.parent = b.id))).length := by
  have h := foldl_count (fun k : BrkInfo => decide (k.parent = b.id)) b.brks 0
  rw [Nat.zero_add] at h
  rw [← h]
  unfold Broker.children
  congr 1
  funext n f
  simp

theorem localBrks_eq (b : Broker) :
    b.localBrks = (b.brks.filter (fun k => decide (k.parent = b.id ∧ k.core = false))).length := by
  have h := foldl_count (fun k : BrkInfo => decide (k.parent = b.id ∧ k.core = false)) b.brks 0
  rw [Nat.zero_add] at h
  rw [← h]
  unfold Broker.localBrks
  congr 1
  funext n f
  simp

/-- a federate on a core directly below the broker -/
def Broker.isLocal (b : Broker) (f : FedInfo) : Bool :=
  !f.nonCounting && match b.get f.parent with
    | some k => decide (k.parent = b.id) && k.core
    | none => false

theorem localFeds_eq (b : Broker) : b.localFeds = (b.feds.filter b.isLocal).length := by
  have h := foldl_count b.isLocal b.feds 0
  rw [Nat.zero_add] at h
  rw [← h]
  rfl

theorem foldl_min (l : List BrkInfo) (n m : Nat) :
    m ≤ l.foldl (fun r k => min k.state.val r) n ↔ m ≤ n ∧ ∀ k ∈ l, m ≤ k.state.val := by
  induction l generalizing n with
  | nil => simp
  | cons a l ih =>
    rw [List.foldl_cons, ih]
    simp only [List.mem_cons, forall_eq_or_imp, Nat.le_min, and_assoc]
    constructor
    · rintro ⟨h1, h2, h3⟩; exact ⟨h2, h1, h3⟩
    · rintro ⟨h1, h2, h3⟩; exact ⟨h2, h1, h3⟩

theorem Conn.one_le (c : Conn) : 1 ≤ c.val ↔ c ≠ .connected := by
  cases c <;> decide

theorem allConn_ready (b : Broker) :
    b.allConn ≥ Conn.initRequested.val ↔
      (∃ k ∈ b.brks, k.nonLocal = false) ∧ ∀ k ∈ b.brks, k.nonLocal = false → k.state ≠ .connected := by
  have e1 : Conn.initRequested.val = 1 := rfl
  have e2 : Conn.disconnected.val = 50 := rfl
  have e3 : Conn.connected.val = 0 := rfl
  unfold Broker.allConn
  rw [e1, e2, e3]
  dsimp only
  split
  · rename_i h
    have : (∃ k ∈ b.brks, k.nonLocal = false) := by
      obtain ⟨k, hk⟩ := List.exists_mem_of_length_pos h
      rw [List.mem_filter] at hk
      exact ⟨k, hk.1, by simpa using hk.2⟩
    rw [ge_iff_le, foldl_min]
    simp only [List.mem_filter, Bool.not_eq_true', this, true_and]
    constructor
    · intro h k hk hn
      exact (Conn.one_le _).mp (h.2 k ⟨hk, hn⟩)
    · intro h
      exact ⟨by omega, fun k hk => (Conn.one_le _).mpr (h k hk.1 hk.2)⟩
  · rename_i h
    constructor
    · intro h'; omega
    · rintro ⟨⟨k, hk, hn⟩, -⟩
      refine absurd (List.length_pos_of_mem (a := k) ?_) h
      rw [List.mem_filter]
      exact ⟨hk, by simp [hn]⟩

theorem filter_length_le {α : Type} (p : α → Bool) (l : List α) : (l.filter p).length ≤ l.length :=
  List.length_filter_le p l

/-- when a broker lets its federation start -/
structure MayStart (b : Broker) : Prop where
  /-- enough federates have joined (those marked as not counting do not count) -/
  feds : b.cfg.minFed ≤ (b.feds.filter (fun f => !f.nonCounting)).length
  /-- enough brokers and cores have joined -/
  brks : b.cfg.minBrk ≤ b.brks.length
  /-- enough of them directly -/
  children : b.cfg.minChild ≤ (b.brks.filter (fun k => decide (k.parent = b.id))).length
  /-- enough direct brokers which are not cores -/
  localBrks : b.cfg.minLocalBrk ≤
    (b.brks.filter (fun k => decide (k.parent = b.id ∧ k.core = false))).length
  /-- enough federates on direct cores -/
  localFeds : b.cfg.minLocalFed ≤ (b.feds.filter b.isLocal).length
  /-- every federate required by name has joined -/
  required : ∀ r ∈ b.cfg.required, r ≠ "" → ∃ f ∈ b.feds, f.name = r
  /-- there is somebody to start -/
  some : ∃ k ∈ b.brks, k.nonLocal = false
  /-- and no direct child has yet to ask -/
  asked : ∀ k ∈ b.brks, k.nonLocal = false → k.state ≠ .connected

theorem ready_iff (b : Broker) : b.ready = true ↔ MayStart b := by
  have hreq : b.cfg.required.any (fun r => decide (r ≠ "" ∧ b.feds.all (fun f => f.name ≠ r))) = false ↔
      ∀ r ∈ b.cfg.required, r ≠ "" → ∃ f ∈ b.feds, f.name = r := by
    rw [List.any_eq_false]
    constructor
    · intro h r hr hne
      have := h r hr
      simp [hne] at this
      exact this
    · intro h r hr
      simp only [decide_eq_true_eq]
      rintro ⟨hne, hall⟩
      obtain ⟨f, hf, hfr⟩ := h r hr hne
      rw [List.all_eq_true] at hall
      have := hall f hf
      simp [hfr] at this
  have h1 : (b.feds.filter (fun f => !f.nonCounting)).length ≤ b.feds.length := List.length_filter_le _ _
  constructor
  · intro h
    unfold Broker.ready at h
    split at h; · cases h
    split at h; · cases h
    split at h; · cases h
    split at h; · cases h
    split at h; · cases h
    split at h; · cases h
    split at h
    · rename_i ha hb hc hd he hf hg
      rw [decide_eq_true_eq, countable_eq] at h
      rw [allConn_ready] at hg
      rw [children_eq] at hc
      rw [localBrks_eq] at hd
      rw [localFeds_eq] at he
      exact ⟨h, by omega, by omega, by omega, by omega, hreq.mp (by simpa using hf), hg.1, hg.2⟩
    · cases h
  · intro h
    have hg := (allConn_ready b).mpr ⟨h.some, h.asked⟩
    have hf := hreq.mpr h.required
    have h2 := h.feds; have h3 := h.brks; have h4 := h.children
    have h5 := h.localBrks; have h6 := h.localFeds
    rw [← children_eq] at h4
    rw [← localBrks_eq] at h5
    rw [← localFeds_eq] at h6
    unfold Broker.ready
    rw [if_neg (by omega), if_neg (by omega), if_neg (by omega), if_neg (by omega),
      if_neg (by omega), hf, if_neg (by simp), if_pos hg, decide_eq_true_eq, countable_eq]
    exact h2

end Verif.Init
