import Verif.Props.ShutdownSpec
/-! What is true of every state in which nobody was disconnected by hand, for C56. -/
namespace Verif.Down

variable {net : Net} {s : Sys}

theorem upd_same {α : Type} (f : Node → α) (a : Node) (x : α) : upd f a x a = x := if_pos rfl
theorem upd_ne {α : Type} (f : Node → α) {a b : Node} (x : α) (h : b ≠ a) : upd f a x b = f b := if_neg h

theorem mem_kids {n c : Node} : c ∈ net.kids n ↔ c < net.size ∧ c ≠ 0 ∧ net.par c = n := by
  unfold Net.kids; simp [List.mem_filter]

theorem mem_put (s : Sys) (u : Node) (x : Node × Cmd) (a b : Node) (c : Cmd) :
    c ∈ (s.put u x).link a b ↔ c ∈ s.link a b ∨ (a = u ∧ (b, c) = x) := by
  unfold Sys.put
  simp only
  by_cases ha : a = u
  · subst ha
    rw [upd_same]
    by_cases hb : b = x.1
    · subst hb; rw [upd_same, List.mem_append, List.mem_singleton]
      constructor
      · rintro (h | h)
        · exact .inl h
        · exact .inr ⟨rfl, by rw [h]⟩
      · rintro (h | ⟨_, h⟩)
        · exact .inl h
        · exact .inr (by rw [← h])
    · rw [upd_ne _ _ hb]
      constructor
      · exact .inl
      · rintro (h | ⟨_, h⟩)
        · exact h
        · exact absurd (by rw [← h]) hb
  · rw [upd_ne _ _ ha]
    constructor
    · exact .inl
    · rintro (h | ⟨h, _⟩)
      · exact h
      · exact absurd h ha

theorem mem_puts (u : Node) (xs : List (Node × Cmd)) : ∀ (s : Sys) (a b : Node) (c : Cmd),
    c ∈ (s.puts u xs).link a b ↔ c ∈ s.link a b ∨ (a = u ∧ (b, c) ∈ xs) := by
  induction xs with
  | nil => intro s a b c; unfold Sys.puts; simp
  | cons x xs ih =>
    intro s a b c
    show c ∈ ((s.put u x).puts u xs).link a b ↔ _
    rw [ih, mem_put, List.mem_cons]
    constructor
    · rintro ((h | ⟨h1, h2⟩) | ⟨h1, h2⟩)
      · exact .inl h
      · exact .inr ⟨h1, .inl h2⟩
      · exact .inr ⟨h1, .inr h2⟩
    · rintro (h | ⟨h1, h2 | h2⟩)
      · exact .inl (.inl h)
      · exact .inl (.inr ⟨h1, h2⟩)
      · exact .inr ⟨h1, h2⟩

theorem put_node (s : Sys) (u : Node) (x : Node × Cmd) : (s.put u x).node = s.node := rfl
theorem puts_node (u : Node) (xs : List (Node × Cmd)) : ∀ (s : Sys), (s.puts u xs).node = s.node := by
  induction xs with
  | nil => intro s; rfl
  | cons x xs ih => intro s; exact ih (s.put u x)

/-- what only grows -/
structure Mono (x y : NSt) : Prop where
  called : x.called = true → y.called = true
  phase : x.phase ≠ .running → y.phase ≠ .running
  stopped : x.phase = .stopped → y.phase = .stopped
  gone : ∀ k, x.gone k = true → y.gone k = true
  acked : ∀ k, x.acked k = true → y.acked k = true

theorem Mono.refl (x : NSt) : Mono x x := ⟨id, id, id, fun _ => id, fun _ => id⟩
theorem Mono.trans {x y z : NSt} (a : Mono x y) (b : Mono y z) : Mono x z :=
  ⟨fun h => b.called (a.called h), fun h => b.phase (a.phase h), fun h => b.stopped (a.stopped h),
   fun k h => b.gone k (a.gone k h), fun k h => b.acked k (a.acked k h)⟩

def Ext (s s' : Sys) : Prop := ∀ n, Mono (s.node n) (s'.node n)

theorem Ext.upd {s s' : Sys} {v : Node} {x : NSt} (hn : s'.node = upd s.node v x) (h : Mono (s.node v) x) :
    Ext s s' := by
  intro n
  rw [hn]
  by_cases e : n = v
  · subst e; rw [upd_same]; exact h
  · rw [upd_ne _ _ e]; exact Mono.refl _

/-- `n` has done what it must before it may say that it leaves -/
def Done (net : Net) (s : Sys) (n : Node) : Prop :=
  match net.kind n with
  | .fed => (s.node n).called = true
  | .core => (s.node n).phase ≠ .running
  | .broker => (s.node n).allLocal (net.kids n) = true

theorem allLocal_iff {x : NSt} {l : List Node} : x.allLocal l = true ↔ l ≠ [] ∧ ∀ k, k ∈ l → x.gone k = true := by
  unfold NSt.allLocal NSt.all
  cases l <;> simp

theorem all_iff {x : NSt} {l : List Node} : x.all l = true ↔ ∀ k, k ∈ l → x.gone k = true := by
  unfold NSt.all; simp

theorem Ext.done {s s' : Sys} (E : Ext s s') {n : Node} (h : Done net s n) : Done net s' n := by
  unfold Done at h ⊢
  cases hk : net.kind n <;> rw [hk] at h <;> simp only at h ⊢
  · rw [allLocal_iff] at h ⊢
    exact ⟨h.1, fun k hm => (E n).gone k (h.2 k hm)⟩
  · exact (E n).phase h
  · exact (E n).called h

/-- what the commands on the links say -/
def Good (net : Net) (s : Sys) (u v : Node) : Cmd → Prop
  | .bye => (u ∈ net.kids v ∧ net.kind u = .fed ∧ (s.node u).called = true) ∨
      (v ∈ net.kids u ∧ net.kind v = .fed ∧ (s.node v).called = true)
  | .disc => u ∈ net.kids v ∧ Done net s u
  | .tbye => u ∈ net.kids v ∨ (v ∈ net.kids u ∧ Done net s u)
  | .ack => v ∈ net.kids u ∧ (s.node u).gone v = true
  | .note => u ∈ net.kids v
  | .spread => v ∈ net.kids u
  | .halt => False
  | .stop => u = v ∧ net.kind v ≠ .fed ∧ v < net.size ∧ Done net s v

theorem Ext.good {s s' : Sys} (E : Ext s s') {u v : Node} {c : Cmd} (h : Good net s u v c) : Good net s' u v c := by
  cases c with
  | bye => exact h.imp (fun h => ⟨h.1, h.2.1, (E u).called h.2.2⟩) (fun h => ⟨h.1, h.2.1, (E v).called h.2.2⟩)
  | disc => exact ⟨h.1, E.done h.2⟩
  | tbye => exact h.imp id (fun h => ⟨h.1, E.done h.2⟩)
  | ack => exact ⟨h.1, (E u).gone v h.2⟩
  | note => exact h
  | spread => exact h
  | halt => exact h
  | stop => exact ⟨h.1, h.2.1, h.2.2.1, E.done h.2.2.2⟩

/-- what the state of a node says -/
structure NodeOk (net : Net) (s : Sys) (n : Node) : Prop where
  gone : ∀ k, (s.node n).gone k = true → k ∈ net.kids n ∧ Done net s k
  acked : ∀ k, (s.node n).acked k = true → (s.node n).gone k = true
  core : net.kind n = .core → (s.node n).phase ≠ .running → ∀ k, k ∈ net.kids n → (s.node n).gone k = true
  broker : net.kind n = .broker → (s.node n).phase ≠ .running → Done net s n
  fed : net.kind n = .fed → (s.node n).phase ≠ .running → (s.node n).called = true

structure InvA (net : Net) (s : Sys) : Prop where
  nodes : ∀ n, NodeOk net s n
  links : ∀ u v c, c ∈ s.link u v → Good net s u v c

/-- the node `v` takes the first command from `u` and does `o` -/
def after (s : Sys) (u v : Node) (cs : List Cmd) (o : Out) : Sys :=
  Sys.puts { node := upd s.node v o.1, link := upd s.link u (upd (s.link u) v cs) } v o.2

theorem after_node (s : Sys) (u v : Node) (cs : List Cmd) (o : Out) :
    (after s u v cs o).node = upd s.node v o.1 := puts_node ..

theorem mem_after {u v : Node} {cs : List Cmd} {o : Out} {a b : Node} {c : Cmd} :
    c ∈ (after s u v cs o).link a b ↔
      (if a = u ∧ b = v then c ∈ cs else c ∈ s.link a b) ∨ (a = v ∧ (b, c) ∈ o.2) := by
  unfold after
  rw [mem_puts]
  simp only
  by_cases h : a = u ∧ b = v
  · obtain ⟨rfl, rfl⟩ := h
    rw [upd_same, upd_same, if_pos ⟨rfl, rfl⟩]
  · rw [if_neg h]
    by_cases ha : a = u
    · subst ha
      rw [upd_same, upd_ne _ _ (fun e => h ⟨rfl, e⟩)]
    · rw [upd_ne _ _ ha]

theorem take_nil {u v : Node} (h : s.link u v = []) : s.step net (.take u v) = s := by
  unfold Sys.step; simp only [h]
theorem take_cons {u v : Node} {c : Cmd} {cs : List Cmd} (h : s.link u v = c :: cs) :
    s.step net (.take u v) = after s u v cs ((s.node v).onCmd net v u c) := by
  unfold Sys.step; simp only [h]; rfl

theorem after_same (s : Sys) (u v : Node) (cs : List Cmd) (o : Out) : (after s u v cs o).node v = o.1 := by
  rw [after_node, upd_same]

/-- the part of `NodeOk` that depends on the node's own state, for a changed state -/
theorem NodeOk.ext {s s' : Sys} (E : Ext s s') {n : Node} (h : NodeOk net s n) (hn : s'.node n = s.node n) :
    NodeOk net s' n :=
  ⟨fun k hk => by rw [hn] at hk; exact ⟨(h.gone k hk).1, E.done (h.gone k hk).2⟩,
   fun k hk => by rw [hn] at hk ⊢; exact h.acked k hk,
   fun hc hp k hk => by rw [hn] at hp ⊢; exact h.core hc hp k hk,
   fun hb hp => by rw [hn] at hp; exact E.done (h.broker hb hp),
   fun hf hp => by rw [hn] at hp ⊢; exact h.fed hf hp⟩

theorem InvA.after (I : InvA net s) {u v : Node} {c : Cmd} {cs : List Cmd} (hl : s.link u v = c :: cs) {o : Out}
    (m : Mono (s.node v) o.1) (hn : NodeOk net (after s u v cs o) v)
    (ho : ∀ b c', (b, c') ∈ o.2 → Good net (after s u v cs o) v b c') : InvA net (after s u v cs o) := by
  have E : Ext s (Down.after s u v cs o) := Ext.upd (after_node ..) m
  refine ⟨fun n => ?_, fun a b c' hc => ?_⟩
  · by_cases e : n = v
    · subst e; exact hn
    · exact (I.nodes n).ext E (by rw [after_node, upd_ne _ _ e])
  · rw [mem_after] at hc
    rcases hc with hc | ⟨rfl, hc⟩
    · refine E.good (I.links a b c' ?_)
      by_cases h : a = u ∧ b = v
      · rw [if_pos h] at hc
        obtain ⟨rfl, rfl⟩ := h
        rw [hl]; exact List.mem_cons_of_mem _ hc
      · rw [if_neg h] at hc; exact hc
    · exact ho b c' hc

end Verif.Down
