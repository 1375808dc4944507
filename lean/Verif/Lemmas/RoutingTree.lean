import Verif.Props.RoutingSpec
/-! Facts about the tree, for C55. -/
namespace Verif.Routes

/-- `a` is `n` or above it -/
inductive Below (net : Net) (a : Node) : Node → Prop
  | refl : Below net a a
  | step {n : Node} : n ≠ 0 → Below net a (net.par n) → Below net a n

/-- `c` is directly below `a` -/
def Child (net : Net) (a c : Node) : Prop := c ≠ 0 ∧ net.par c = a

variable {net : Net}

theorem Below.le (h : net.Ok) {a n : Node} (b : Below net a n) : a ≤ n := by
  induction b with
  | refl => exact Nat.le_refl _
  | step hn _ ih => exact Nat.le_of_lt (Nat.lt_of_le_of_lt ih (h.below _ hn))

theorem Below.trans {a b c : Node} (x : Below net a b) (y : Below net b c) : Below net a c := by
  induction y with
  | refl => exact x
  | step hn _ ih => exact .step hn ih

theorem Below.root (h : net.Ok) (n : Node) : Below net 0 n := by
  induction n using Nat.strongRecOn with
  | _ n ih =>
    by_cases hn : n = 0
    · subst hn; exact .refl
    · exact .step hn (ih _ (h.below n hn))

theorem Below.par {c n : Node} (hc : c ≠ 0) (b : Below net c n) : Below net (net.par c) n :=
  (Below.step hc .refl).trans b

theorem Child.below {a c : Node} (h : Child net a c) : Below net a c := by
  have := h.2; subst this; exact .step h.1 .refl

theorem Child.lt (h : net.Ok) {a c : Node} (x : Child net a c) : a < c := by
  have := h.below c x.1; rw [x.2] at this; exact this

theorem Below.antisymm (h : net.Ok) {a b : Node} (x : Below net a b) (y : Below net b a) : a = b :=
  Nat.le_antisymm (x.le h) (y.le h)

theorem Below.cases {a n : Node} (b : Below net a n) : a = n ∨ (n ≠ 0 ∧ Below net a (net.par n)) := by
  cases b with
  | refl => exact .inl rfl
  | step hn b => exact .inr ⟨hn, b⟩

theorem Below.linear {a b n : Node} (x : Below net a n) (y : Below net b n) :
    Below net a b ∨ Below net b a := by
  induction x with
  | refl => exact .inr y
  | step hn x ih =>
    rcases y.cases with e | ⟨_, y⟩
    · subst e; exact .inl (.step hn x)
    · exact ih y

theorem Below.toward {a n : Node} (b : Below net a n) (hne : a ≠ n) :
    ∃ c, Child net a c ∧ Below net c n := by
  induction b with
  | refl => exact absurd rfl hne
  | @step n hn b ih =>
    by_cases e : a = net.par n
    · exact ⟨n, ⟨hn, e.symm⟩, .refl⟩
    · obtain ⟨c, h1, h2⟩ := ih e
      exact ⟨c, h1, .step hn h2⟩

theorem Child.unique (h : net.Ok) {a c c' o : Node} (x : Child net a c) (y : Child net a c')
    (bx : Below net c o) (by' : Below net c' o) : c = c' := by
  have key : ∀ {c c' : Node}, Child net a c → Child net a c' → Below net c c' → c = c' := by
    intro c c' x y b
    rcases b.cases with e | ⟨_, b⟩
    · exact e
    · rw [y.2] at b
      exact absurd (Nat.lt_of_le_of_lt (b.le h) (x.lt h)) (Nat.lt_irrefl _)
  rcases bx.linear by' with b | b
  · exact key x y b
  · exact (key y x b).symm

theorem Below.ofCore (h : net.Ok) {c o : Node} (hc : net.core c = true) (b : Below net c o) : c = o := by
  by_cases e : c = o
  · exact e
  · obtain ⟨d, hd, _⟩ := b.toward e
    have := h.leaf d hd.1
    rw [hd.2, hc] at this; cases this

theorem Child.notCore (h : net.Ok) {a c : Node} (x : Child net a c) : net.core a = false := by
  have := h.leaf c x.1; rwa [x.2] at this

theorem Child.ne (h : net.Ok) {a c : Node} (x : Child net a c) : a ≠ c := Nat.ne_of_lt (x.lt h)

theorem Child.asymm (h : net.Ok) {a c : Node} (x : Child net a c) : ¬ Child net c a := by
  intro y; exact absurd (Nat.lt_trans (x.lt h) (y.lt h)) (Nat.lt_irrefl _)

end Verif.Routes
