import Verif.Props.TimeoutSpec
namespace Verif
namespace Ping
open Node

theorem run_snoc (b : Node) (es : List Ev) (e : Ev) : run b (es ++ [e]) = handle (run b es) e := by
  unfold run; rw [List.foldl_append]; rfl

theorem run_append (b : Node) (es fs : List Ev) : run b (es ++ fs) = run (run b es) fs := by
  unfold run; rw [List.foldl_append]

theorem snoc_ind {α : Type} {P : List α → Prop} (h0 : P []) (h1 : ∀ l a, P l → P (l ++ [a])) (l : List α) : P l := by
  rw [← List.reverse_reverse l]
  induction l.reverse with
  | nil => exact h0
  | cons a l ih => rw [List.reverse_cons]; exact h1 _ _ ih

/-! ## One tick -/

theorem mem_modFirst {x : Id} {f : Link → Link} {cs : List Link} {c : Link} (h : c ∈ modFirst x f cs) :
    c ∈ cs ∨ ∃ d ∈ cs, d.id = x ∧ c = f d := by
  induction cs with
  | nil => cases h
  | cons d cs ih =>
    unfold modFirst at h
    split at h
    · rename_i hd
      rcases List.mem_cons.1 h with rfl | h
      · exact Or.inr ⟨d, by simp, hd, rfl⟩
      · exact Or.inl (by simp [h])
    · rcases List.mem_cons.1 h with rfl | h
      · exact Or.inl (by simp)
      · rcases ih h with k | ⟨d', k, j⟩
        · exact Or.inl (by simp [k])
        · exact Or.inr ⟨d', by simp [k], j⟩

theorem modFirst_mem {x : Id} {f : Link → Link} {cs : List Link} (h : ∃ c ∈ cs, c.id = x) :
    ∃ d ∈ cs, d.id = x ∧ f d ∈ modFirst x f cs := by
  induction cs with
  | nil => obtain ⟨c, hc, _⟩ := h; cases hc
  | cons d cs ih =>
    unfold modFirst
    split
    · rename_i hd
      exact ⟨d, by simp, hd, by simp⟩
    · rename_i hd
      obtain ⟨c, hc, hx⟩ := h
      rcases List.mem_cons.1 hc with rfl | hc
      · exact absurd hx hd
      · obtain ⟨e, h1, h2, h3⟩ := ih ⟨c, hc, hx⟩
        exact ⟨e, by simp [h1], h2, by simp [h3]⟩

theorem modFirst_keeps {x : Id} {f : Link → Link} {cs : List Link} {c : Link} (h : c ∈ cs) :
    c ∈ modFirst x f cs ∨ (c.id = x ∧ f c ∈ modFirst x f cs) := by
  induction cs with
  | nil => cases h
  | cons d cs ih =>
    unfold modFirst
    split
    · rename_i hd
      rcases List.mem_cons.1 h with rfl | h
      · exact Or.inr ⟨hd, by simp⟩
      · exact Or.inl (by simp [h])
    · rcases List.mem_cons.1 h with rfl | h
      · exact Or.inl (by simp)
      · rcases ih h with k | ⟨k, j⟩
        · exact Or.inl (by simp [k])
        · exact Or.inr ⟨k, by simp [j]⟩

theorem mem_withLink {cs : List Link} {m : Member} {c : Link} (h : c ∈ withLink cs m) :
    c ∈ cs ∨ (c = { id := m.id, noPing := m.noPing }) := by
  unfold withLink at h
  split at h
  · exact Or.inl h
  · simpa using h

theorem withLink_mem {cs : List Link} {m : Member} {c : Link} (h : c ∈ cs) : c ∈ withLink cs m := by
  unfold withLink; split
  · exact h
  · simp [h]

theorem withLink_has (cs : List Link) (m : Member) : ∃ c ∈ withLink cs m, c.id = m.id := by
  unfold withLink
  split
  · rename_i h
    rw [List.any_eq_true] at h
    obtain ⟨c, hc, k⟩ := h
    exact ⟨c, hc, by simpa using k⟩
  · exact ⟨{ id := m.id, noPing := m.noPing }, by simp, rfl⟩

/-- the records say of every member whether it answers pings -/
def Says (b : Node) : Prop :=
  (∀ c ∈ b.conns, ∃ m ∈ b.members, m.id = c.id) ∧ (∀ c ∈ b.conns, ∀ m ∈ b.members, m.id = c.id → m.noPing = c.noPing) ∧
    b.members.Pairwise (fun a c => a.id ≠ c.id)

theorem silent_eq {cs : List Link} {m : Member} (h : ∀ c ∈ cs, m.id = c.id → m.noPing = c.noPing) :
    silent (withLink cs m) m.id = m.noPing := by
  unfold silent
  obtain ⟨c, hc, hx⟩ := withLink_has cs m
  cases hf : (withLink cs m).find? (fun c => c.id == m.id) with
  | none =>
    have := List.find?_eq_none.1 hf c hc
    simp [hx] at this
  | some d =>
    have h1 := List.mem_of_find?_eq_some hf
    have h2 := List.find?_some hf
    have h2' : d.id = m.id := by simpa using h2
    show d.noPing = m.noPing
    rcases mem_withLink h1 with k | k
    · exact (h d k h2'.symm).symm
    · rw [k]

theorem pingOne_frame (now : Int) (b : Node) (m : Member) :
    ((pingOne now b m).members = b.members ∧ (pingOne now b m).parent = b.parent ∧ (pingOne now b m).operating = b.operating ∧
      (pingOne now b m).timeout = b.timeout ∧ (pingOne now b m).isCore = b.isCore ∧ (pingOne now b m).root = b.root ∧
      (pingOne now b m).since = b.since) := by
  unfold pingOne
  dsimp only
  split
  · split <;> exact ⟨rfl, rfl, rfl, rfl, rfl, rfl, rfl⟩
  · exact ⟨rfl, rfl, rfl, rfl, rfl, rfl, rfl⟩

/-- what one turn of the loop of questions does -/
theorem pingOne_spec (now : Int) (b : Node) (m : Member) (hs : ∀ c ∈ b.conns, m.id = c.id → m.noPing = c.noPing) :
    (pingOne now b m).out = b.out ++ (if m.state.live = true ∧ m.noPing = false then [.ping m.id m.core] else []) ∧
    (∀ c ∈ (pingOne now b m).conns, (∃ d ∈ b.conns, c.id = d.id ∧ c.noPing = d.noPing ∧ (c.waiting = true → d.waiting = true ∧ c.last = d.last ∨
        (m.id = c.id ∧ c.last = now ∧ m.state.live = true ∧ m.noPing = false))) ∨
      (c.id = m.id ∧ c.noPing = m.noPing ∧ (c.waiting = true → c.last = now ∧ m.state.live = true ∧ m.noPing = false))) ∧
    (m.state.live = true → m.noPing = false → ∃ c ∈ (pingOne now b m).conns, c.id = m.id ∧ c.waiting = true ∧ c.last = now) ∧
    (∀ c ∈ b.conns, c.waiting = true → c.last = now → ∃ d ∈ (pingOne now b m).conns, d.id = c.id ∧ d.waiting = true ∧ d.last = now) ∧
    ((pingOne now b m).members = b.members ∧ (pingOne now b m).parent = b.parent ∧ (pingOne now b m).operating = b.operating ∧
      (pingOne now b m).timeout = b.timeout ∧ (pingOne now b m).isCore = b.isCore ∧ (pingOne now b m).root = b.root ∧
      (pingOne now b m).since = b.since) := by
  have hsil := silent_eq (cs := b.conns) (m := m) hs
  refine and_assoc.1 (and_assoc.1 (and_assoc.1 ⟨?_, pingOne_frame now b m⟩))
  unfold pingOne
  dsimp only
  rw [hsil]
  rw [and_assoc, and_assoc]
  cases hl : m.state.live
  · -- gone
    simp only [Bool.false_eq_true, if_false, false_and, List.append_nil]
    refine ⟨trivial, fun c hc => ?_, (fun h => by cases h), fun c hc h1 h2 => ?_⟩
    · rcases mem_modFirst hc with h | ⟨d, h, hx, rfl⟩
      · rcases mem_withLink h with k | rfl
        · exact Or.inl ⟨c, k, rfl, rfl, fun w => Or.inl ⟨w, rfl⟩⟩
        · exact Or.inr ⟨rfl, rfl, fun w => by cases w⟩
      · rcases mem_withLink h with k | rfl
        · exact Or.inl ⟨d, k, rfl, rfl, fun w => Or.inl ⟨w, rfl⟩⟩
        · exact Or.inr ⟨rfl, rfl, fun w => by cases w⟩
    · rcases modFirst_keeps (x := m.id) (f := fun c => { c with active := false }) (withLink_mem (m := m) hc) with k | ⟨_, k⟩
      · exact ⟨c, k, rfl, h1, h2⟩
      · exact ⟨_, k, rfl, h1, h2⟩
  · cases hn : m.noPing
    · simp only [if_true, Bool.false_eq_true, if_false, and_self]
      refine ⟨trivial, fun c hc => ?_, fun _ _ => ?_, fun c hc h1 h2 => ?_⟩
      · rcases mem_modFirst hc with h | ⟨d, h, hx, rfl⟩
        · rcases mem_withLink h with k | rfl
          · exact Or.inl ⟨c, k, rfl, rfl, fun w => Or.inl ⟨w, rfl⟩⟩
          · exact Or.inr ⟨rfl, hn, fun w => by cases w⟩
        · rcases mem_withLink h with k | rfl
          · exact Or.inl ⟨d, k, rfl, rfl, fun w => Or.inr ⟨hx.symm, rfl, trivial⟩⟩
          · exact Or.inr ⟨rfl, hn, fun w => ⟨rfl, trivial⟩⟩
      · obtain ⟨d, _, h2, h3⟩ := modFirst_mem (f := fun c => { c with active := true, waiting := true, last := now }) (withLink_has b.conns m)
        exact ⟨_, h3, h2, rfl, rfl⟩
      · rcases modFirst_keeps (x := m.id) (f := fun c => { c with active := true, waiting := true, last := now }) (withLink_mem (m := m) hc) with k | ⟨_, k⟩
        · exact ⟨c, k, rfl, h1, h2⟩
        · exact ⟨_, k, rfl, rfl, rfl⟩
    · simp only [if_true, Bool.true_eq_false, and_false, if_false, List.append_nil]
      refine ⟨trivial, fun c hc => ?_, (fun _ h => by cases h), fun c hc h1 h2 => ⟨c, withLink_mem hc, rfl, h1, h2⟩⟩
      rcases mem_withLink hc with k | rfl
      · exact Or.inl ⟨c, k, rfl, rfl, fun w => Or.inl ⟨w, rfl⟩⟩
      · exact Or.inr ⟨rfl, hn, fun w => by cases w⟩

/-- what the loop of questions does -/
theorem pingAll_spec (now : Int) (ms : List Member) (b : Node)
    (hs : ∀ c ∈ b.conns, ∀ m ∈ ms, m.id = c.id → m.noPing = c.noPing) (hp : ms.Pairwise (fun a c => a.id ≠ c.id)) :
    (ms.foldl (pingOne now) b).out = b.out ++ (ms.filterMap fun m =>
      if m.state.live = true ∧ m.noPing = false then some (.ping m.id m.core) else none) ∧
    (∀ c ∈ (ms.foldl (pingOne now) b).conns, (∃ d ∈ b.conns, c.id = d.id ∧ c.noPing = d.noPing ∧ (c.waiting = true → d.waiting = true ∧ c.last = d.last ∨
        ∃ m ∈ ms, m.id = c.id ∧ c.last = now ∧ m.state.live = true ∧ m.noPing = false)) ∨
      ∃ m ∈ ms, c.id = m.id ∧ c.noPing = m.noPing ∧ (c.waiting = true → c.last = now ∧ m.state.live = true ∧ m.noPing = false)) ∧
    (∀ m ∈ ms, m.state.live = true → m.noPing = false →
      ∃ c ∈ (ms.foldl (pingOne now) b).conns, c.id = m.id ∧ c.waiting = true ∧ c.last = now) ∧
    (∀ c ∈ b.conns, c.waiting = true → c.last = now → ∃ d ∈ (ms.foldl (pingOne now) b).conns, d.id = c.id ∧ d.waiting = true ∧ d.last = now) ∧
    ((ms.foldl (pingOne now) b).members = b.members ∧ (ms.foldl (pingOne now) b).parent = b.parent ∧
      (ms.foldl (pingOne now) b).operating = b.operating ∧ (ms.foldl (pingOne now) b).timeout = b.timeout ∧
      (ms.foldl (pingOne now) b).isCore = b.isCore ∧ (ms.foldl (pingOne now) b).root = b.root ∧
      (ms.foldl (pingOne now) b).since = b.since) := by
  induction ms generalizing b with
  | nil =>
    refine ⟨by simp, fun c hc => Or.inl ⟨c, hc, rfl, rfl, fun w => Or.inl ⟨w, rfl⟩⟩, (fun m hm => by cases hm),
      fun c hc h1 h2 => ⟨c, hc, rfl, h1, h2⟩, rfl, rfl, rfl, rfl, rfl, rfl, rfl⟩
  | cons m ms ih =>
    obtain ⟨p1, p2, p3, p4, p5⟩ := pingOne_spec now b m (fun c hc => hs c hc m (by simp))
    rw [List.pairwise_cons] at hp
    obtain ⟨q1, q2, q3, q4, q5⟩ := ih (pingOne now b m) (fun c hc n hn hx => by
      rcases p2 c hc with ⟨d, hd, k1, k2, _⟩ | ⟨k1, _⟩
      · rw [k2]; exact hs d hd n (by simp [hn]) (hx.trans k1)
      · exact absurd (hx.trans k1).symm (hp.1 n hn)) hp.2
    rw [List.foldl_cons]
    refine ⟨?_, fun c hc => ?_, fun n hn h1 h2 => ?_, fun c hc h1 h2 => ?_, ?_⟩
    · rw [q1, p1, List.filterMap_cons]
      split <;> simp_all
    · rcases q2 c hc with ⟨d, hd, k1, k2, k3⟩ | ⟨n, hn, k1, k2, k3⟩
      · rcases p2 d hd with ⟨e, he, j1, j2, j3⟩ | ⟨j1, j2, j3⟩
        · refine Or.inl ⟨e, he, k1.trans j1, k2.trans j2, fun w => ?_⟩
          rcases k3 w with ⟨w', l⟩ | ⟨n, hn, l⟩
          · rcases j3 w' with ⟨w'', l'⟩ | ⟨l1, l2, l3⟩
            · exact Or.inl ⟨w'', l.trans l'⟩
            · exact Or.inr ⟨m, by simp, l1.trans k1.symm, l.trans l2, l3⟩
          · exact Or.inr ⟨n, by simp [hn], l⟩
        · by_cases w : c.waiting = true
          · rcases k3 w with ⟨w', l⟩ | ⟨n, hn, l1, l2, l3⟩
            · exact Or.inr ⟨m, by simp, k1.trans j1, k2.trans j2, fun _ => ⟨l.trans (j3 w').1, (j3 w').2⟩⟩
            · exact absurd (l1.trans (k1.trans j1)).symm (hp.1 n hn)
          · exact Or.inr ⟨m, by simp, k1.trans j1, k2.trans j2, fun w' => absurd w' w⟩
      · exact Or.inr ⟨n, by simp [hn], k1, k2, k3⟩
    · rcases List.mem_cons.1 hn with rfl | hn
      · obtain ⟨c, hc, k1, k2, k3⟩ := p3 h1 h2
        obtain ⟨d, hd, j1, j2, j3⟩ := q4 c hc k2 k3
        exact ⟨d, hd, j1.trans k1, j2, j3⟩
      · exact q3 n hn h1 h2
    · obtain ⟨d, hd, k1, k2, k3⟩ := p4 c hc h1 h2
      obtain ⟨e, he, j1, j2, j3⟩ := q4 d hd k2 k3
      exact ⟨e, he, j1.trans k1, j2, j3⟩
    · obtain ⟨a1, a2, a3, a4, a5, a6, a7⟩ := p5
      obtain ⟨b1, b2, b3, b4, b5, b6, b7⟩ := q5
      exact ⟨b1.trans a1, b2.trans a2, b3.trans a3, b4.trans a4, b5.trans a5, b6.trans a6, b7.trans a7⟩

end Ping
end Verif
