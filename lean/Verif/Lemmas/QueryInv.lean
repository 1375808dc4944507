import Verif.Lemmas.QueryBuild
/-! The invariant of C57. -/
namespace Verif.Query

variable {net : Net} {i : Nat}

/-- who produced an answer -/
def Ans.src : Ans → Option Node
  | .doc v _ _ _ => some v
  | _ => none

theorem Lists.src {v : Node} {a : Ans} (h : Lists net i v a) : a.src = some v := by
  cases h; rfl

theorem Lists.notWait {v : Node} {a : Ans} (h : Lists net i v a) : a.isWait = false := by
  cases h; rfl

/-- a message stands for the place holder `n` of `w` for `u` -/
def tokF (net : Net) (i : Nat) (w n u : Nat) : Msg → Bool
  | .req u' i' n' => u' == u && i' == i && n' == n && net.par u == w
  | .rep v' i' n' a => v' == w && i' == i && n' == n && (a.src == some u)

def cnt (net : Net) (i : Nat) (w n u : Nat) (ms : List Msg) : Nat := ms.countP (tokF net i w n u)

/-- those who wait at `u` and stand for place holder `n` of `w` -/
def held (net : Net) (w n u : Nat) (reqs : List Dest) : Nat := if net.par u = w then reqs.count (.up n) else 0

/-- everything that will fill place holder `n` of `w` for `u` -/
def tok (net : Net) (i : Nat) (s : Sys) (w n u : Nat) : Nat :=
  cnt net i w n u s.flight + held net w n u ((s.node u).slot i).reqs

/-- what is missing, without the kinds -/
def Builder.gaps (b : Builder) : List (Nat × Node) := b.missing.map (fun p => (p.1, p.2.2))

/-- a slot on its own -/
structure SlotOk (net : Net) (i : Nat) (v : Node) (x : Slot) : Prop where
  none : x.b.map = none → x.b.missing = []
  some : ∀ t l, x.b.map = some (t, l) → ∃ es : List (Node × Ans), l = es.map (fun e => (net.kind e.1, e.2)) ∧
    (es.map (·.1) ++ x.b.missing.map (·.2.2)).Perm (net.kids v) ∧ ∀ e ∈ es, Lists net i e.1 e.2
  kind : ∀ p ∈ x.b.missing, p.2.1 = net.kind p.2.2
  keys : (x.b.missing.map (·.1)).Nodup
  wait : x.reqs = [] ↔ x.b.missing = []
  user : ∀ q, Dest.user q ∈ x.reqs → net.kind v = .broker
  up : ∀ n, Dest.up n ∈ x.reqs → v ∈ net.kids (net.par v) ∧ net.kind v ≠ .fed
  good : x.bad = false

/-- a message on its own -/
def MsgOk (net : Net) (i : Nat) : Msg → Prop
  | .req u j _ => j = i → u ∈ net.kids (net.par u)
  | .rep v j _ a => j = i → ∃ u ∈ net.kids v, Lists net i u a

/-- the layout of the place holders of `v` when the locks do not change -/
def layout (net : Net) (busy : Node → Bool) (v : Node) : List (Nat × Node) := number 2 (asks net busy v)

structure Inv (net : Net) (i : Nat) (s : Sys) : Prop where
  conn : ∀ v u, (s.node v).conn u = true
  slots : ∀ v, SlotOk net i v ((s.node v).slot i)
  msgs : ∀ m ∈ s.flight, MsgOk net i m
  exact : net.reuse i = true → ∀ w n u, tok net i s w n u = if (n, u) ∈ ((s.node w).slot i).b.gaps then 1 else 0
  some : net.reuse i = false → ∀ w n u, (n, u) ∈ ((s.node w).slot i).b.gaps → 1 ≤ tok net i s w n u
  lay : net.reuse i = false → ∀ w n u, 1 ≤ tok net i s w n u → (n, u) ∈ layout net s.busy w
  gaps : net.reuse i = false → ∀ w n u, (n, u) ∈ ((s.node w).slot i).b.gaps → (n, u) ∈ layout net s.busy w
  once : ∀ q v, s.asked[q]? = Option.some (v, i) → times s q + ((s.node v).slot i).reqs.count (.user q) = 1
  right : ∀ q v a, s.asked[q]? = Option.some (v, i) → (q, a) ∈ s.answers → Lists net i v a
  who : ∀ v j q, .user q ∈ ((s.node v).slot j).reqs → s.asked[q]? = Option.some (v, j)
  past : ∀ q a, (q, a) ∈ s.answers → q < s.asked.length

theorem cnt_append (w n u : Nat) (a b : List Msg) : cnt net i w n u (a ++ b) = cnt net i w n u a + cnt net i w n u b :=
  List.countP_append

theorem cnt_nil (w n u : Nat) : cnt net i w n u [] = 0 := rfl

theorem cnt_other {ms : List Msg} (h : ∀ m ∈ ms, m.type ≠ i) (w n u : Nat) : cnt net i w n u ms = 0 := by
  unfold cnt
  rw [List.countP_eq_zero]
  intro m hm
  have := h m hm
  cases m <;> simp_all [tokF, Msg.type]

/-- the requests of a new round -/
theorem cnt_downs (v : Node) (k : Nat) (l : List Node) (hl : ∀ u ∈ l, net.par u = v) (w n u : Nat) :
    cnt net i w n u ((number k l).map (fun p => Msg.req p.2 i p.1)) = if w = v ∧ (n, u) ∈ number k l then 1 else 0 := by
  induction l generalizing k with
  | nil => simp [number, cnt]
  | cons a l ih =>
    have ih := ih (k + 1) (fun u hu => hl u (List.mem_cons_of_mem _ hu))
    have ha := hl a (List.mem_cons_self ..)
    simp only [number, List.map_cons]
    unfold cnt at ih ⊢
    rw [List.countP_cons, ih]
    by_cases h : (n, u) = (k, a)
    · obtain ⟨rfl, rfl⟩ := Prod.mk.inj h
      have hn : (n, u) ∉ number (n + 1) l := fun hm => by have := number_ge hm; omega
      by_cases hw : w = v
      · simp [hn, tokF, ha, hw]
      · have hw' : v ≠ w := fun e => hw e.symm
        simp [hn, tokF, ha, hw, hw']
    · have : tokF net i w n u (.req a i k) = false := by
        rw [Bool.eq_false_iff]
        intro ht
        simp [tokF] at ht
        exact h (by rw [ht.1.1, ht.1.2])
      rw [this]
      have h2 : ((n, u) ∈ (k, a) :: number (k + 1) l) ↔ (n, u) ∈ number (k + 1) l := by simp only [List.mem_cons, h, false_or]
      simp only [h2]
      simp

/-- the replies sent up -/
theorem cnt_up (v p : Node) (a : Ans) (hs : a.src = some v) (hp : p = net.par v) (m w n u : Nat) :
    cnt net i w n u [.rep p i m a] = if u = v ∧ net.par v = w ∧ n = m then 1 else 0 := by
  unfold cnt
  rw [List.countP_cons]
  simp only [List.countP_nil, Nat.zero_add]
  have : tokF net i w n u (.rep p i m a) = true ↔ (u = v ∧ net.par v = w ∧ n = m) := by
    simp only [tokF, hs, hp, Bool.and_eq_true, beq_iff_eq, Option.some.injEq]
    constructor
    · rintro ⟨⟨⟨h1, _⟩, h3⟩, h4⟩; exact ⟨h4.symm, h1, h3.symm⟩
    · rintro ⟨h1, h2, h3⟩; exact ⟨⟨⟨h2, trivial⟩, h3.symm⟩, h1.symm⟩
  by_cases hc : u = v ∧ net.par v = w ∧ n = m
  · rw [if_pos hc, if_pos (this.2 hc)]
  · rw [if_neg hc, if_neg (fun h => hc (this.1 h))]

end Verif.Query
