import Verif.Lemmas.RoutingTree
/-! The way from one node to another, for C55. -/
namespace Verif.Routes

variable {net : Net}

/-- the next node on the way to `o` -/
def Nx (net : Net) (o a b : Node) : Prop :=
  (Below net a o ∧ Child net a b ∧ Below net b o) ∨ (¬ Below net a o ∧ a ≠ 0 ∧ b = net.par a)

theorem Nx.inj (h : net.Ok) {o a b b' : Node} (x : Nx net o a b) (y : Nx net o a b') : b = b' := by
  rcases x with ⟨x1, x2, x3⟩ | ⟨x1, x2, x3⟩ <;> rcases y with ⟨y1, y2, y3⟩ | ⟨y1, y2, y3⟩
  · exact x2.unique h y2 x3 y3
  · exact absurd x1 y1
  · exact absurd y1 x1
  · rw [x3, y3]

theorem Nx.ne (h : net.Ok) {o a b : Node} (x : Nx net o a b) : a ≠ o := by
  intro e; subst e
  rcases x with ⟨_, x2, x3⟩ | ⟨x1, _⟩
  · exact absurd (Nat.lt_of_lt_of_le (x2.lt h) (x3.le h)) (Nat.lt_irrefl _)
  · exact x1 .refl

inductive Path (net : Net) (o : Node) : Node → List (Node × Node) → Prop
  | nil : Path net o o []
  | cons {a b : Node} {l : List (Node × Node)} : Nx net o a b → Path net o b l → Path net o a ((a, b) :: l)

theorem Path.down (h : net.Ok) {o : Node} : ∀ (k a : Nat), o - a = k → Below net a o → ∃ l, Path net o a l := by
  intro k
  induction k using Nat.strongRecOn with
  | _ k ih =>
    intro a hk hb
    by_cases e : a = o
    · subst e; exact ⟨[], .nil⟩
    · obtain ⟨c, hc, hco⟩ := hb.toward e
      have h1 := hc.lt h
      have h2 := hco.le h
      obtain ⟨l, hl⟩ := ih (o - c) (by omega) c rfl hco
      exact ⟨_, .cons (.inl ⟨hb, hc, hco⟩) hl⟩

theorem Path.exists (h : net.Ok) (o : Node) : ∀ a, ∃ l, Path net o a l := by
  intro a
  induction a using Nat.strongRecOn with
  | _ a ih =>
    by_cases hb : Below net a o
    · exact Path.down h _ a rfl hb
    · have ha : a ≠ 0 := by intro e; subst e; exact hb (Below.root h o)
      obtain ⟨l, hl⟩ := ih _ (h.below a ha)
      exact ⟨_, .cons (.inr ⟨hb, ha, rfl⟩) hl⟩

theorem Path.inj (h : net.Ok) {o a : Node} {l l' : List (Node × Node)} (x : Path net o a l) (y : Path net o a l') :
    l = l' := by
  induction x generalizing l' with
  | nil =>
    cases y with
    | nil => rfl
    | cons n _ => exact absurd rfl (n.ne h)
  | cons n x ih =>
    cases y with
    | nil => exact absurd rfl (n.ne h)
    | cons n' y =>
      have e := n.inj h n'
      subst e
      rw [ih y]

theorem Path.suffix {o a : Node} {l : List (Node × Node)} (x : Path net o a l) : ∀ {l1 l2 : List (Node × Node)} {u v : Node},
    l = l1 ++ (u, v) :: l2 → Nx net o u v ∧ Path net o v l2 ∧ Path net o u ((u, v) :: l2) := by
  induction x with
  | nil => intro l1 l2 u v e; cases l1 <;> cases e
  | cons n x ih =>
    intro l1 l2 u v e
    cases l1 with
    | nil => cases e; exact ⟨n, x, .cons n x⟩
    | cons y l1 => cases e; exact ih rfl

theorem Path.fresh (h : net.Ok) {o a b : Node} {l : List (Node × Node)} (x : Path net o a ((a, b) :: l)) (c : Node) :
    (a, c) ∉ l := by
  intro hm
  obtain ⟨l1, l2, e⟩ := List.append_of_mem hm
  have y := (x.suffix (l1 := (a, b) :: l1) (l2 := l2) (u := a) (v := c) (by rw [e]; rfl)).2.2
  have := x.inj h y
  have := congrArg List.length this
  rw [e] at this
  simp at this
  omega

/-- the nodes on the way that are not above `o` are above the start -/
theorem Path.upper {o a : Node} {l : List (Node × Node)} (x : Path net o a l) : ∀ {u v : Node}, (u, v) ∈ l →
    ¬ Below net u o → Below net u a := by
  induction x with
  | nil => intro u v hm; cases hm
  | @cons a b l n x ih =>
    intro u v hm hn
    rcases List.mem_cons.1 hm with e | hm
    · cases e; exact .refl
    · have hb := ih hm hn
      rcases n with ⟨_, _, n3⟩ | ⟨_, n2, n3⟩
      · exact absurd (hb.trans n3) hn
      · subst n3; exact .step n2 hb

/-- the edges before and behind an edge of the way are others -/
theorem Path.others (h : net.Ok) {o a : Node} {l l1 l2 : List (Node × Node)} {u v : Node} (x : Path net o a l)
    (e : l = l1 ++ (u, v) :: l2) : (∀ c, (u, c) ∉ l1) ∧ ∀ c, (u, c) ∉ l2 := by
  have s := x.suffix e
  refine ⟨fun c hm => ?_, s.2.2.fresh h⟩
  obtain ⟨m1, m2, e'⟩ := List.append_of_mem hm
  have y := (x.suffix (l1 := m1) (l2 := m2 ++ (u, v) :: l2) (u := u) (v := c) (by rw [e, e']; simp)).2.2
  have := s.2.2.inj h y
  have := congrArg List.length this
  simp at this
  omega

end Verif.Routes
