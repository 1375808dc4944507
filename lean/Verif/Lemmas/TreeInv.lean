import Verif.Lemmas.Tree
/-! The invariant of the tree of cores and brokers, and the parts of a move. -/
namespace Verif
open Causal Causality Deps Fed TC

namespace Tree
open Route

/-- what holds of everything on the way, whatever the route -/
structure Shape (hop : FedId → FedId → FedId) (W : Route) (A B : FedId) (s : Tree) : Prop where
  inv : ∀ i, FedId.isFederate i = true → Inv (s.fed i) ∧ (s.fed i).tc.self = i
  self : ∀ n, (s.fwd n).self = n
  chan : ∀ u v m, .cmd m ∈ s.chan u v → m.dest ≠ parentBroker ∧ v = hop u m.dest ∧ ∃ me, Fit me m ∧ Reach hop me m.dest u
  pend : ∀ n m, m ∈ s.pend n → FedId.isFederate n = false ∧ Fit n m ∧ m.dest ≠ parentBroker
  data : ∀ u v t b, .data t A B b ∈ s.chan u v → ∃ q, q < W.len ∧ u = W.node q ∧ v = W.node (q + 1)

/-- what is known of station `q` -/
structure Station (F : Prop) (X : Time) (W : Route) (q : Nat) (s : Tree) : Prop where
  wired : Fwd.Wired (W.role q) (W.src (q - 1)) (W.dst q) (s.fwd (W.node q))
  told : Fwd.Told F X (W.role q) (W.src (q - 1)) (s.fwd (W.node q))
  policy : (s.fwd (W.node q)).restrictive = true ∨ F

/-- nothing ahead of place `k` on link `i` lies after `X` -/
structure Bound (F : Prop) (W : Route) (s : Tree) (X : Time) (i k : Nat) : Prop where
  pos : 0 ≤ X
  here : ∀ n m, n < k → (s.chan (W.node i) (W.node (i + 1)))[n]? = some (.cmd m) → W.On i m → Within F X m
  way : ∀ q, i < q → q < W.len → ∀ m, .cmd m ∈ s.chan (W.node q) (W.node (q + 1)) → W.On q m → Within F X m
  pend : ∀ q, i < q → q < W.len → W.station q = true → ∀ m ∈ s.pend (W.node q), m.dest = W.dst q → Within F X m
  stop : ∀ q, i < q → q < W.len → W.station q = true → Station F X W q s
  table : Table F (W.src (W.len - 1)) X (s.fed (W.node W.len))

/-- a time that bounds what may still come: the stamp of data on the way, or the floor of the sender -/
def Active (F : Prop) (W : Route) (A B : FedId) (s : Tree) (X : Time) (i k : Nat) : Prop :=
  (i < W.len ∧ ∃ b, (s.chan (W.node i) (W.node (i + 1)))[k]? = some (.data X A B b)) ∨
  (i = 0 ∧ k = (s.chan (W.node 0) (W.node 1)).length ∧ (s.fed A).live ∧ Pol F (s.fed A) ∧ X = (s.fed A).floor)

structure Pair (F : Prop) (hop : FedId → FedId → FedId) (W : Route) (A B : FedId) (s : Tree) : Prop where
  shape : Shape hop W A B s
  ok : Ok F (s.fed A)
  all : ∀ X i k, Active F W A B s X i k → Bound F W s X i k

variable {F : Prop} {hop : FedId → FedId → FedId} {W : Route} {A B : FedId} {limit : Int} {s : Tree}

theorem Station.mono {X Y : Time} {q : Nat} (h : Station F X W q s) (hxy : X ≤ Y) : Station F Y W q s :=
  ⟨h.wired, h.told.mono hxy, h.policy⟩

theorem Bound.mono {X Y : Time} {i k : Nat} (h : Bound F W s X i k) (hxy : X ≤ Y) : Bound F W s Y i k :=
  ⟨Int.le_trans h.pos hxy, fun n m a b c => (h.here n m a b c).mono hxy, fun q a b m c d => (h.way q a b m c d).mono hxy,
    fun q a b c m d e => (h.pend q a b c m d e).mono hxy, fun q a b c => (h.stop q a b c).mono hxy, h.table.mono hxy⟩

theorem Bound.later {X : Time} {i k j l : Nat} (h : Bound F W s X i k) (hij : i < j) (hj : j < W.len) : Bound F W s X j l :=
  ⟨h.pos, fun n m _ b c => h.way j hij hj m (List.mem_of_getElem? b) c, fun q a b m c d => h.way q (by omega) b m c d,
    fun q a b c m d e => h.pend q (by omega) b c m d e, fun q a b c => h.stop q (by omega) b c, h.table⟩

theorem Active.lt (hW : W.Ok hop A B) {X : Time} {i k : Nat} (h : Active F W A B s X i k) : i < W.len := by
  rcases h with h | h
  · exact h.1
  · rw [h.1]; exact hW.long

/-! ### taking a parcel away -/

theorem take_chan (u v a b : FedId) : (s.take u v).chan a b = if a = u ∧ b = v then (s.chan a b).tail else s.chan a b := rfl

theorem take_mem {u v a b : FedId} {x : Parcel} (h : x ∈ (s.take u v).chan a b) : x ∈ s.chan a b := by
  rw [take_chan] at h
  split at h
  · exact List.mem_of_mem_tail h
  · exact h

/-- places on a link before and after -/
def shift (s : Tree) (W : Route) (u v : FedId) (i k : Nat) : Nat :=
  if W.node i = u ∧ W.node (i + 1) = v ∧ s.chan u v ≠ [] then k + 1 else k

theorem active_take {u v : FedId} {X : Time} {i k : Nat} (h : Active F W A B (s.take u v) X i k) :
    Active F W A B s X i (shift s W u v i k) := by
  unfold shift
  rcases h with ⟨hi, b, hb⟩ | ⟨hi, hk, hl, hp, hX⟩
  · left
    refine ⟨hi, b, ?_⟩
    rw [take_chan] at hb
    by_cases e : W.node i = u ∧ W.node (i + 1) = v
    · rw [if_pos e, List.getElem?_tail] at hb
      have hne : s.chan u v ≠ [] := by intro hn; rw [e.1, e.2, hn] at hb; simp at hb
      rw [if_pos ⟨e.1, e.2, hne⟩]
      exact hb
    · rw [if_neg e] at hb
      rw [if_neg (fun x => e ⟨x.1, x.2.1⟩)]
      exact hb
  · subst hi
    right
    refine ⟨rfl, ?_, hl, hp, hX⟩
    rw [take_chan] at hk
    by_cases e : W.node 0 = u ∧ W.node 1 = v
    · rw [if_pos e, List.length_tail] at hk
      by_cases hn : s.chan u v = []
      · rw [if_neg (fun x => x.2.2 hn)]
        rw [e.1, e.2, hn] at hk ⊢
        exact hk
      · rw [if_pos ⟨e.1, e.2, hn⟩]
        rw [e.1, e.2] at hk ⊢
        have := List.length_pos_iff.mpr hn
        omega
    · rw [if_neg e] at hk
      rw [if_neg (fun x => e ⟨x.1, x.2.1⟩)]
      exact hk

theorem bound_take {u v : FedId} {X : Time} {i k : Nat} (h : Bound F W s X i (shift s W u v i k)) : Bound F W (s.take u v) X i k := by
  refine ⟨h.pos, ?_, fun q a b m c d => h.way q a b m (take_mem c) d, h.pend, fun q a b c => ?_, h.table⟩
  · intro n m hn hm ho
    rw [take_chan] at hm
    by_cases e : W.node i = u ∧ W.node (i + 1) = v
    · rw [if_pos e, List.getElem?_tail] at hm
      have hne : s.chan u v ≠ [] := by intro hn; rw [e.1, e.2, hn] at hm; simp at hm
      refine h.here (n + 1) m ?_ hm ho
      unfold shift
      rw [if_pos ⟨e.1, e.2, hne⟩]
      omega
    · rw [if_neg e] at hm
      refine h.here n m ?_ hm ho
      unfold shift
      rw [if_neg (fun x => e ⟨x.1, x.2.1⟩)]
      exact hn
  · have := h.stop q a b c
    exact ⟨this.wired, this.told, this.policy⟩

theorem pair_take (h : Pair F hop W A B s) (u v : FedId) : Pair F hop W A B (s.take u v) :=
  ⟨⟨h.shape.inv, h.shape.self, fun a b m hm => h.shape.chan a b m (take_mem hm), h.shape.pend, fun a b t x hm => h.shape.data a b t x (take_mem hm)⟩,
    h.ok, fun X i k ha => bound_take (h.all X i _ (active_take ha))⟩

/-! ### passing a command or data on -/

theorem put_chan (u v a b : FedId) (x : Parcel) : (s.put u v x).chan a b = if a = u ∧ b = v then s.chan a b ++ [x] else s.chan a b := rfl

theorem put_old {u v a b : FedId} {x y : Parcel} (h : y ∈ (s.put u v x).chan a b) : y ∈ s.chan a b ∨ (y = x ∧ a = u ∧ b = v) := by
  rw [put_chan] at h
  split at h
  · rename_i e
    rcases List.mem_append.mp h with h | h
    · exact .inl h
    · exact .inr ⟨by simpa using h, e⟩
  · exact .inl h

theorem getElem?_snoc {l : List Parcel} {x y : Parcel} {k : Nat} (h : (l ++ [x])[k]? = some y) : l[k]? = some y ∨ (k = l.length ∧ y = x) := by
  by_cases hk : k < l.length
  · rw [List.getElem?_append_left hk] at h; exact .inl h
  · rw [List.getElem?_append_right (by omega)] at h
    have : k - l.length = 0 := by
      have := (List.getElem?_eq_some_iff.mp h).1
      simp at this
      omega
    rw [this] at h
    exact .inr ⟨by omega, by simpa using h.symm⟩

theorem put_at {u v a b : FedId} {x y : Parcel} {k : Nat} (h : ((s.put u v x).chan a b)[k]? = some y) :
    (s.chan a b)[k]? = some y ∨ (k = (s.chan a b).length ∧ y = x ∧ a = u ∧ b = v) := by
  rw [put_chan] at h
  split at h
  · rename_i e
    rcases getElem?_snoc h with h | ⟨h1, h2⟩
    · exact .inl h
    · exact .inr ⟨h1, h2, e⟩
  · exact .inl h

theorem active_put_cmd (hW : W.Ok hop A B) {u v : FedId} (hu : u ≠ A) {m : Msg} {X : Time} {i k : Nat}
    (h : Active F W A B (s.put u v (.cmd m)) X i k) : Active F W A B s X i k := by
  rcases h with ⟨hi, b, hb⟩ | ⟨hi, hk, hl, hp, hX⟩
  · left
    refine ⟨hi, b, ?_⟩
    rcases put_at hb with hb | ⟨_, hb, _⟩
    · exact hb
    · cases hb
  · right
    refine ⟨hi, ?_, hl, hp, hX⟩
    rw [put_chan, if_neg (fun e => hu (by rw [← e.1]; exact hW.first))] at hk
    exact hk

theorem active_len {X : Time} {i k : Nat} (h : Active F W A B s X i k) : k ≤ (s.chan (W.node i) (W.node (i + 1))).length := by
  rcases h with ⟨_, b, hb⟩ | ⟨hi, hk, _⟩
  · exact Nat.le_of_lt (List.getElem?_eq_some_iff.mp hb).1
  · rw [hi]; exact Nat.le_of_eq hk

theorem pair_put_cmd (hW : W.Ok hop A B) (h : Pair F hop W A B s) {u : FedId} (hu : FedId.isFederate u = false) {m : Msg}
    (hd : m.dest ≠ parentBroker) (hf : ∃ me, Fit me m ∧ Reach hop me m.dest u)
    (hb : ∀ q, q < W.len → W.node q = u → W.node (q + 1) = hop u m.dest → W.On q m → ∀ X i k, Active F W A B s X i k → i < q → Within F X m) :
    Pair F hop W A B (s.put u (hop u m.dest) (.cmd m)) := by
  have huA : u ≠ A := by intro e; rw [e, hW.sender] at hu; cases hu
  refine ⟨⟨h.shape.inv, h.shape.self, ?_, h.shape.pend, ?_⟩, h.ok, ?_⟩
  · intro a b x hx
    rcases put_old hx with hx | ⟨e, rfl, rfl⟩
    · exact h.shape.chan a b x hx
    · cases e
      exact ⟨hd, rfl, hf⟩
  · intro a b t x hx
    rcases put_old hx with hx | ⟨e, _⟩
    · exact h.shape.data a b t x hx
    · cases e
  · intro X i k ha
    have ha' := active_put_cmd hW huA ha
    have b := h.all X i k ha'
    have hkl := active_len ha'
    refine ⟨b.pos, ?_, ?_, b.pend, fun q x y z => ?_, b.table⟩
    · intro n x hn hx ho
      rcases put_at hx with hx | ⟨hk, _⟩
      · exact b.here n x hn hx ho
      · omega
    · intro q h1 h2 x hx ho
      rcases put_old hx with hx | ⟨e, e1, e2⟩
      · exact b.way q h1 h2 x hx ho
      · cases e
        exact hb q h2 e1 e2 ho X i k ha' h1
    · have := b.stop q x y z
      exact ⟨this.wired, this.told, this.policy⟩

theorem bound_put_data {u v : FedId} {t : Time} {a b : FedId} {y : Bool} {X : Time} {i k : Nat} (h : Bound F W s X i k)
    : Bound F W (s.put u v (.data t a b y)) X i k := by
  refine ⟨h.pos, ?_, ?_, h.pend, fun q x y z => ?_, h.table⟩
  · intro n x hn hx ho
    rcases put_at hx with hx | ⟨_, e, _⟩
    · exact h.here n x hn hx ho
    · cases e
  · intro q h1 h2 x hx ho
    rcases put_old hx with hx | ⟨e, _⟩
    · exact h.way q h1 h2 x hx ho
    · cases e
  · have := h.stop q x y z
    exact ⟨this.wired, this.told, this.policy⟩

/-- data is put on a link -/
theorem pair_put_data (h : Pair F hop W A B s) {u v : FedId} {t : Time} {a b : FedId} {y : Bool}
    (hb : a = A → b = B → ∃ q, q < W.len ∧ u = W.node q ∧ v = W.node (q + 1) ∧
      ∀ j, j < W.len → u = W.node j → v = W.node (j + 1) → ∃ Y, Y ≤ t ∧ Bound F W s Y j (s.chan (W.node j) (W.node (j + 1))).length) :
    Pair F hop W A B (s.put u v (.data t a b y)) := by
  refine ⟨⟨h.shape.inv, h.shape.self, ?_, h.shape.pend, ?_⟩, h.ok, ?_⟩
  · intro a b x hx
    rcases put_old hx with hx | ⟨e, rfl, rfl⟩
    · exact h.shape.chan a b x hx
    · cases e
  · intro c d t' x hx
    rcases put_old hx with hx | ⟨e, rfl, rfl⟩
    · exact h.shape.data c d t' x hx
    · cases e
      obtain ⟨q, h1, h2, h3, _⟩ := hb rfl rfl
      exact ⟨q, h1, h2, h3⟩
  · intro X i k ha
    apply bound_put_data
    rcases ha with ⟨hi, x, hx⟩ | ⟨hi, hk, hl, hp, hX⟩
    · rcases put_at hx with hx | ⟨hk, e, e1, e2⟩
      · exact h.all X i k (.inl ⟨hi, x, hx⟩)
      · cases e
        obtain ⟨q, h1, h2, h3, h4⟩ := hb rfl rfl
        obtain ⟨Y, hY, hB⟩ := h4 i hi e1.symm e2.symm
        rw [hk]
        exact hB.mono hY
    · subst hi
      rw [put_chan] at hk
      have hf := h.all X 0 (s.chan (W.node 0) (W.node 1)).length (.inr ⟨rfl, rfl, hl, hp, hX⟩)
      refine ⟨hf.pos, ?_, hf.way, hf.pend, hf.stop, hf.table⟩
      intro n m hn hm ho
      exact hf.here n m (List.getElem?_eq_some_iff.mp hm).1 hm ho

/-! ### the queue of a core or broker -/

theorem unqueue_mem {n k : FedId} {m : Msg} (h : m ∈ (s.unqueue n).pend k) : m ∈ s.pend k := by
  have h : m ∈ (if k = n then (s.pend k).tail else s.pend k) := h
  split at h
  · exact List.mem_of_mem_tail h
  · exact h

theorem pair_unqueue (h : Pair F hop W A B s) (n : FedId) : Pair F hop W A B (s.unqueue n) := by
  refine ⟨⟨h.shape.inv, h.shape.self, h.shape.chan, fun k m hm => h.shape.pend k m (unqueue_mem hm), h.shape.data⟩, h.ok, ?_⟩
  intro X i k ha
  have b := h.all X i k ha
  refine ⟨b.pos, b.here, b.way, fun q x y z m hm => b.pend q x y z m (unqueue_mem hm), fun q x y z => ?_, b.table⟩
  have := b.stop q x y z
  exact ⟨this.wired, this.told, this.policy⟩

theorem fresh_mem {old new l : List Packet} (hl : new = old ++ l) {m : Msg} (h : m ∈ fresh old new) :
    (∃ p ∈ l, m ∈ p.msgs) ∧ m.dest ≠ parentBroker := by
  unfold fresh at h
  obtain ⟨h1, h2⟩ := List.mem_filter.mp h
  rw [hl, List.drop_left] at h1
  obtain ⟨p, hp, hm⟩ := List.mem_flatMap.mp h1
  exact ⟨⟨p, hp, by rw [← parts_eq]; exact hm⟩, by simpa using h2⟩

/-- the coordinator keeps its identity and sends only commands it may send -/
def Plain (a b : Fwd) : Prop := b.self = a.self ∧ ∃ l, b.out = a.out ++ l ∧ ∀ p ∈ l, ∀ m ∈ p.msgs, Fit a.self m

theorem _root_.Verif.Fwd.Act.plain {F : Prop} {X : Time} {k : Role} {g c : FedId} {a b : Fwd} (h : Fwd.Act F X k g c a b) : Plain a b := by
  obtain ⟨l, h1, h2, _⟩ := h.out
  exact ⟨h.self, l, h1, h2⟩

theorem fwd_fwd (n k : FedId) (w : Fwd) : (s.fwdAct n w).fwd k = if k = n then w else s.fwd k := rfl
theorem fwd_pend (n k : FedId) (w : Fwd) : (s.fwdAct n w).pend k = if k = n then s.pend k ++ fresh (s.fwd n).out w.out else s.pend k := rfl

theorem pair_fwd (h : Pair F hop W A B s) {n : FedId} (hn : FedId.isFederate n = false) {w : Fwd} (hp : Plain (s.fwd n) w)
    (ha : ∀ q, 0 < q → q < W.len → W.station q = true → W.node q = n → ∀ X i k, Active F W A B s X i k → i < q →
      Fwd.Act F X (W.role q) (W.src (q - 1)) (W.dst q) (s.fwd n) w)
    (hd : ∀ q, 0 < q → q < W.len → W.station q = true → W.node q = n → W.role q = .root → W.src (q - 1) = W.dst q → w.hasDelayed = false) :
    Pair F hop W A B (s.fwdAct n w) := by
  obtain ⟨hs, l, hl, hfit⟩ := hp
  have hself := h.shape.self n
  refine ⟨⟨h.shape.inv, ?_, h.shape.chan, ?_, h.shape.data⟩, h.ok, ?_⟩
  · intro k
    rw [fwd_fwd]
    split
    · rename_i e; rw [hs, e]; exact hself
    · exact h.shape.self k
  · intro k m hm
    rw [fwd_pend] at hm
    split at hm
    · rename_i e
      subst e
      rcases List.mem_append.mp hm with hm | hm
      · exact h.shape.pend k m hm
      · obtain ⟨⟨p, hp, hm⟩, hd⟩ := fresh_mem hl hm
        have := hfit p hp m hm
        rw [hself] at this
        exact ⟨hn, this, hd⟩
    · exact h.shape.pend k m hm
  · intro X i k hact
    have hact : Active F W A B s X i k := hact
    have b := h.all X i k hact
    have pre : ∀ q, i < q → q < W.len → W.station q = true → W.node q = n →
        Fwd.Pre F X (W.role q) (W.src (q - 1)) (W.dst q) (s.fwd n) w := by
      intro q x y z e
      have st := b.stop q x y z
      have h1 := st.wired; have h2 := st.told; have h3 := st.policy
      rw [e] at h1 h2 h3
      exact ⟨h1, h2, h3, hd q (by omega) y z e⟩
    refine ⟨b.pos, b.here, b.way, ?_, ?_, b.table⟩
    · intro q x y z m hm ho
      rw [fwd_pend] at hm
      split at hm
      · rename_i e
        rcases List.mem_append.mp hm with hm | hm
        · exact b.pend q x y z m hm ho
        · have act := ha q (by omega) y z e X i k hact x
          obtain ⟨l', h1, _, h3⟩ := act.out
          obtain ⟨⟨p, hp, hm⟩, _⟩ := fresh_mem h1 hm
          exact h3 (pre q x y z e) p hp m hm ho
      · exact b.pend q x y z m hm ho
    · intro q x y z
      by_cases e : W.node q = n
      · have act := ha q (by omega) y z e X i k hact x
        obtain ⟨h1, h2⟩ := act.good (pre q x y z e)
        have h3 := (pre q x y z e).policy
        refine ⟨?_, ?_, ?_⟩
        · rw [fwd_fwd, if_pos e]; exact h1
        · rw [fwd_fwd, if_pos e]; exact h2
        · rw [fwd_fwd, if_pos e, act.policy]; exact h3
      · have := b.stop q x y z
        refine ⟨?_, ?_, ?_⟩
        · rw [fwd_fwd, if_neg e]; exact this.wired
        · rw [fwd_fwd, if_neg e]; exact this.told
        · rw [fwd_fwd, if_neg e]; exact this.policy

/-! ### a federate takes a step -/

theorem fed_fed (i k : FedId) (o : FedOp) : (s.fedAct hop limit i o).1.fed k = if k = i then ((s.fed i).step limit o).1 else s.fed k := rfl
theorem fed_chan (i a b : FedId) (o : FedOp) : (s.fedAct hop limit i o).1.chan a b = if a = i then
    s.chan a b ++ ((fresh (s.fed i).tc.out ((s.fed i).step limit o).1.tc.out).filter (fun m => hop i m.dest == b)).map .cmd else s.chan a b := rfl

theorem shape_fed (h : Shape hop W A B s) {i : FedId} (hi : FedId.isFederate i = true) {o : FedOp} (ho : o.sane i) :
    Shape hop W A B (s.fedAct hop limit i o).1 := by
  obtain ⟨l, h1, h2⟩ := (Fed.sg_step limit (s.fed i) o).out
  refine ⟨?_, h.self, ?_, h.pend, ?_⟩
  · intro k hk
    rw [fed_fed]
    split
    · rename_i e
      subst e
      have hk' := h.inv k hk
      have := step_ok limit (s.fed k) o hk'.1 (by rw [hk'.2]; exact ho)
      exact ⟨this.inv, this.self.trans hk'.2⟩
    · exact h.inv k hk
  · intro a b m hm
    rw [fed_chan] at hm
    split at hm
    · rename_i e
      subst e
      rcases List.mem_append.mp hm with hm | hm
      · exact h.chan _ _ _ hm
      · obtain ⟨x, hx, e⟩ := List.mem_map.mp hm
        cases e
        obtain ⟨hx, hh⟩ := List.mem_filter.mp hx
        obtain ⟨⟨p, hp, hmm⟩, hd⟩ := fresh_mem h1 hx
        have := h2 p hp m hmm
        rw [(h.inv a hi).2] at this
        exact ⟨hd, (by simpa using hh : hop a m.dest = b).symm, a, this, .base⟩
    · exact h.chan _ _ _ hm
  · intro a b t x hm
    rw [fed_chan] at hm
    split at hm
    · rcases List.mem_append.mp hm with hm | hm
      · exact h.data _ _ _ _ hm
      · obtain ⟨x, _, e⟩ := List.mem_map.mp hm
        cases e
    · exact h.data _ _ _ _ hm

theorem fed_chan_route (hW : W.Ok hop A B) {i : FedId} (hi : FedId.isFederate i = true) (o : FedOp) (q : Nat) (hq : q < W.len)
    (h : i ≠ A ∨ 0 < q) : (s.fedAct hop limit i o).1.chan (W.node q) (W.node (q + 1)) = s.chan (W.node q) (W.node (q + 1)) := by
  rw [fed_chan, if_neg]
  intro e
  by_cases h0 : q = 0
  · subst h0
    rw [hW.first] at e
    rcases h with h | h
    · exact h e.symm
    · omega
  · have := hW.inner q (by omega) hq
    rw [e, hi] at this
    cases this

theorem active_fed_other (hW : W.Ok hop A B) {i : FedId} (hi : FedId.isFederate i = true) (hiA : i ≠ A) {o : FedOp} {X : Time} {j k : Nat}
    (h : Active F W A B (s.fedAct hop limit i o).1 X j k) : Active F W A B s X j k := by
  have hA : (s.fedAct hop limit i o).1.fed A = s.fed A := by rw [fed_fed, if_neg (Ne.symm hiA)]
  unfold Active at h
  rw [hA, fed_chan_route hW hi o 0 hW.long (.inl hiA)] at h
  rcases h with ⟨hj, h⟩ | h
  · rw [fed_chan_route hW hi o j hj (.inl hiA)] at h
    exact .inl ⟨hj, h⟩
  · exact .inr h

/-- a step of a federate other than the sender -/
theorem pair_fed_other (hW : W.Ok hop A B) (h : Pair F hop W A B s) {i : FedId} (hi : FedId.isFederate i = true) (hiA : i ≠ A) {o : FedOp}
    (ho : o.sane i) (hk : i = B → ∀ X j k, Active F W A B s X j k → opOk (Speaks F (W.src (W.len - 1)) X) o) :
    Pair F hop W A B (s.fedAct hop limit i o).1 := by
  have hA : (s.fedAct hop limit i o).1.fed A = s.fed A := by rw [fed_fed, if_neg (Ne.symm hiA)]
  refine ⟨shape_fed h.shape hi ho, by rw [hA]; exact h.ok, ?_⟩
  intro X j k ha
  have ha' := active_fed_other hW hi hiA ha
  have b := h.all X j k ha'
  have hj := ha'.lt hW
  refine ⟨b.pos, ?_, ?_, b.pend, fun q x y z => ?_, ?_⟩
  · rw [fed_chan_route hW hi o j hj (.inl hiA)]; exact b.here
  · intro q h1 h2
    rw [fed_chan_route hW hi o q h2 (.inl hiA)]; exact b.way q h1 h2
  · have := b.stop q x y z
    exact ⟨this.wired, this.told, this.policy⟩
  · have hb := b.table
    rw [hW.last] at hb ⊢
    rw [fed_fed]
    split
    · rename_i e
      subst e
      have hself := (h.shape.inv B hi).2
      exact table_step (h.shape.inv B hi).1 (by rw [hself]; exact src_ne_B hW (by have := hW.long; omega)) o
        (by rw [hself]; exact ho) (hk rfl X j k ha') hb
    · exact hb

/-- a step of the sender -/
theorem pair_fed_A (hW : W.Ok hop A B) (h : Pair F hop W A B s) {o : FedOp} (ho : o.sane A) (hc : calm F (s.fed A) o) :
    Pair F hop W A B (s.fedAct hop limit A o).1 ∧
    (((s.fedAct hop limit A o).1.fed A).live → Pol F ((s.fedAct hop limit A o).1.fed A) →
      (s.fed A).live ∧ Pol F (s.fed A) ∧ (s.fed A).floor ≤ ((s.fedAct hop limit A o).1.fed A).floor) ∧
    (∀ (t : Time) (i k : Nat) (b : Bool), i < W.len → ((s.fedAct hop limit A o).1.chan (W.node i) (W.node (i + 1)))[k]? = some (.data t A B b) →
      (s.chan (W.node i) (W.node (i + 1)))[k]? = some (.data t A B b)) := by
  have hA : (s.fedAct hop limit A o).1.fed A = ((s.fed A).step limit o).1 := by rw [fed_fed, if_pos rfl]
  have hself := (h.shape.inv A hW.sender).2
  have hgo := go_step (F := F) limit (s.fed A) o (by rw [hself]; exact ho) hc
  have hold : ∀ (t : Time) (i k : Nat) (b : Bool), i < W.len → ((s.fedAct hop limit A o).1.chan (W.node i) (W.node (i + 1)))[k]? = some (.data t A B b) →
      (s.chan (W.node i) (W.node (i + 1)))[k]? = some (.data t A B b) := by
    intro t i k b hi hd
    by_cases h0 : 0 < i
    · rw [fed_chan_route hW hW.sender o i hi (.inr h0)] at hd; exact hd
    · have h0 : i = 0 := by omega
      subst h0
      rw [fed_chan, if_pos hW.first] at hd
      by_cases hk : k < (s.chan (W.node 0) (W.node (0 + 1))).length
      · rw [List.getElem?_append_left hk] at hd; exact hd
      · rw [List.getElem?_append_right (by omega)] at hd
        obtain ⟨x, _, e⟩ := List.mem_map.mp (List.mem_of_getElem? hd)
        cases e
  have htab : ∀ {Y}, Table F (W.src (W.len - 1)) Y (s.fed (W.node W.len)) →
      Table F (W.src (W.len - 1)) Y ((s.fedAct hop limit A o).1.fed (W.node W.len)) := by
    intro Y hY
    rw [fed_fed, if_neg (by rw [hW.last]; exact Ne.symm hW.differ)]; exact hY
  have hstop : ∀ {Y q}, Station F Y W q s → Station F Y W q (s.fedAct hop limit A o).1 := fun x => ⟨x.wired, x.told, x.policy⟩
  refine ⟨⟨shape_fed h.shape hW.sender ho, ?_, ?_⟩, ?_, hold⟩
  · rw [hA]; exact fun a b => (hgo h.ok a b).good
  · intro X i k ha
    rcases ha with ⟨hi, b, hd⟩ | ⟨hi, hk, hl, hp, hX⟩
    · have hd' := hold X i k b hi hd
      have bd := h.all X i k (.inl ⟨hi, b, hd'⟩)
      have hkl := (List.getElem?_eq_some_iff.mp hd').1
      refine ⟨bd.pos, ?_, ?_, bd.pend, fun q x y z => hstop (bd.stop q x y z), htab bd.table⟩
      · intro n m hn hm
        refine bd.here n m hn ?_
        rw [fed_chan] at hm
        split at hm
        · rw [List.getElem?_append_left (by omega)] at hm; exact hm
        · exact hm
      · intro q h1 h2
        rw [fed_chan_route hW hW.sender o q h2 (.inr (by omega))]; exact bd.way q h1 h2
    · subst hi
      rw [hA] at hl hp hX
      have ad := hgo h.ok hl hp
      have bd := h.all _ 0 _ (.inr ⟨rfl, rfl, ad.live, ad.pol, rfl⟩)
      have hle : (s.fed A).floor ≤ X := by rw [hX]; exact ad.floor
      have bd := bd.mono hle
      refine ⟨bd.pos, ?_, ?_, bd.pend, fun q x y z => hstop (bd.stop q x y z), htab bd.table⟩
      · intro n m hn hm
        rw [fed_chan, if_pos hW.first] at hm
        by_cases hlt : n < (s.chan (W.node 0) (W.node (0 + 1))).length
        · rw [List.getElem?_append_left hlt] at hm
          exact bd.here n m hlt hm
        · intro _
          rw [List.getElem?_append_right (by omega)] at hm
          obtain ⟨x, hx, e⟩ := List.mem_map.mp (List.mem_of_getElem? hm)
          cases e
          obtain ⟨l, h1, h2⟩ := ad.out
          obtain ⟨⟨p, hp, hmm⟩, _⟩ := fresh_mem h1 (List.mem_filter.mp hx).1
          rw [hX]
          exact h2 p hp m hmm
      · intro q h1 h2
        rw [fed_chan_route hW hW.sender o q h2 (.inr (by omega))]; exact bd.way q h1 h2
  · rw [hA]
    intro hl hp
    have ha := hgo h.ok hl hp
    exact ⟨ha.live, ha.pol, ha.floor⟩

end Tree
end Verif
