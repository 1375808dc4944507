import Verif.Props.TreeCausality
/-!
# C49: cases

Two federations to which the theorems of `Verif.Props.TreeCausality` apply, one in which they must not, and what goes
wrong there.
-/
namespace Verif
namespace Tree
open Causal Causality Deps Fed TC Fwd

/-! ### checks that can be evaluated -/

/-- the stations of a route, checked -/
def stationsB (W : Route) (p : Nat → Bool) : Bool := (List.range W.len).all fun q => !(decide (0 < q) && W.station q) || p q

theorem stations_of {W : Route} {p : Nat → Bool} (h : stationsB W p = true) (q : Nat) (h0 : 0 < q) (hq : q < W.len) (hs : W.station q = true) : p q = true := by
  unfold stationsB at h
  rw [List.all_eq_true] at h
  have := h q (List.mem_range.mpr hq)
  simpa [h0, hs] using this

/-- `Fair`, for histories of the simplest kind -/
def fairB (W : Route) (s : Tree) : Tmove → Bool
  | .user i o => byUser o && (match o with
    | .timeRequest t it _ _ => decide (t ≤ maxVal) && decide (it = .noIterations)
    | .execRequest _ => true
    | .setFlag _ _ => decide ((s.fed i).state ≠ .executing)
    | _ => false)
  | .env n cmd => decide (cmd.actionTime ≤ maxVal) && decide (word cmd = .silent) && cmd.action != .forceTimeGrant &&
      !(cmd.interrupted || cmd.dynamicJoin) && stationsB W (fun q => W.node q != n)
  | .send _ _ _ _ => true
  | .deliver u v _ => (s.chan u v).head?.all (fun x => decide (x.time ≤ maxVal) && (match x with
    | .cmd m => !rewiring m
    | _ => true))
  | .flush _ => true
  | .start n => !(s.fwd n).core || (s.fwd n).deps.hasActive
  | .leave _ => false

def bindingB (f : Fed) : Bool := f.state != .executing || (f.tc.info.restrictive && f.tc.info.uninterruptible)

def undelayedB (W : Route) (s : Tree) : Bool := stationsB W fun q => !(s.fwd (W.node q)).hasDelayed

def legalB (W : Route) (A : FedId) (hop : FedId → FedId → FedId) (limit : Int) : Tree → List Tmove → Bool
  | _, [] => true
  | s, m :: ms => fairB W s m && bindingB (s.fed A) && undelayedB W (s.step hop limit m).1 && legalB W A hop limit (s.step hop limit m).1 ms

theorem fair_of_fairB {F : Prop} {W : Route} {A B : FedId} {s : Tree} {m : Tmove} (h : fairB W s m = true) : Fair F W A B s m := by
  cases m with
  | user i o =>
    simp only [fairB, Bool.and_eq_true] at h
    obtain ⟨h2, h3⟩ := h
    refine ⟨h2, ?_, ?_⟩
    · cases o <;> simp at h3 <;> first | exact h3.1 | trivial
    · cases o <;> simp at h3 <;> first | exact fun _ => h3.2 | trivial | exact h3
  | env i cmd =>
    simp only [fairB, Bool.and_eq_true, bne_iff_ne, decide_eq_true_eq, Bool.not_eq_true'] at h
    obtain ⟨⟨⟨⟨h2, h3⟩, h4⟩, h5⟩, h6⟩ := h
    refine ⟨fun _ => ⟨⟨h2, ?_⟩, ⟨h4, fun hj => ?_⟩⟩, ?_, .inl h3⟩
    · rintro ⟨h, _⟩
      unfold word at h3
      rcases h with h | h <;> rw [h] at h3 <;> cases h3
    · rw [hj.2] at h5; cases h5
    · rintro ⟨q, a, b, c, d⟩
      have := stations_of h6 q a b c
      rw [d] at this
      simp at this
  | deliver u v n =>
    simp only [fairB] at h
    refine ⟨?_, ?_⟩
    · intro x hx
      rw [Option.mem_def] at hx
      rw [hx] at h
      simp only [Option.all_some, Bool.and_eq_true, decide_eq_true_eq] at h
      exact h.1
    · intro _ m hm _
      rw [Option.mem_def] at hm
      rw [hm] at h
      simp only [Option.all_some, Bool.and_eq_true, Bool.not_eq_true'] at h
      exact h.2
  | send => trivial
  | flush => trivial
  | start n =>
    intro _ hc
    simpa [fairB, hc] using h
  | leave n => cases h

theorem legal_of_legalB {F : Prop} {W : Route} {A B : FedId} {hop : FedId → FedId → FedId} {limit : Int} {s : Tree} {ms : List Tmove}
    (h : legalB W A hop limit s ms = true) : Legal F W A B hop limit s ms := by
  induction ms generalizing s with
  | nil => trivial
  | cons m ms ih =>
    simp only [legalB, Bool.and_eq_true] at h
    obtain ⟨⟨⟨h1, h2⟩, h3⟩, h4⟩ := h
    refine ⟨fair_of_fairB h1, ?_, ?_, ih h4⟩
    · intro e
      unfold bindingB at h2
      rw [e] at h2
      simp at h2
      exact ⟨.inl h2.1, fun _ => h2.2⟩
    · intro q a b c _ _
      have := stations_of h3 q a b c
      simpa using this

/-- `Wired`, checked -/
def wiredB (k : Role) (g c : FedId) (w : Fwd) : Bool :=
  decide (g ≠ w.self) && FedId.isValid g && FedId.isValid c && (decide (k = .root) || decide (g ≠ c)) &&
  (w.deps.any fun d => d.fedID == g && d.dependency && (if k = .down then d.connection == .parent else d.connection != .parent)) &&
  (w.deps.all fun d => d.fedID != c || (if k = .up then d.connection != .child else d.connection == .child)) &&
  (w.deps.all fun d => d.minFedActual == invalidFed) && (k != .root || w.deps.all fun d => d.connection != .parent) &&
  (k != .down || !w.noParent) && (k != .root || w.noParent)

theorem wired_of_wiredB {k : Role} {g c : FedId} {w : Fwd} (h : wiredB k g c w = true) : Wired k g c w := by
  simp only [wiredB, Bool.and_eq_true, decide_eq_true_eq, Bool.or_eq_true] at h
  obtain ⟨⟨⟨⟨⟨⟨⟨⟨⟨h1, h2⟩, h3⟩, h4⟩, h5⟩, h6⟩, h7⟩, h8⟩, h9⟩, h10⟩ := h
  refine ⟨h1, h2, h3, fun hk => h4.resolve_left hk, ⟨?_, ?_, ?_, ?_⟩, ?_, ?_⟩
  · rw [List.any_eq_true] at h5
    obtain ⟨d, hd, h5⟩ := h5
    simp only [Bool.and_eq_true, beq_iff_eq] at h5
    refine ⟨d, hd, h5.1.1, h5.1.2, ?_⟩
    have := h5.2
    dsimp only
    split at this <;> rename_i e
    · rw [if_pos e]; simpa using this
    · rw [if_neg e]; simpa using this
  · rw [List.all_eq_true] at h6
    intro d hd e
    have := h6 d hd
    simp only [e, bne_self_eq_false, Bool.false_or] at this
    split at this <;> rename_i e
    · rw [if_pos e]; simpa using this
    · rw [if_neg e]; simpa using this
  · rw [List.all_eq_true] at h7
    intro d hd; simpa using h7 d hd
  · intro hk d hd
    rw [hk] at h8
    simp only [bne_self_eq_false, Bool.false_eq_true, false_or] at h8
    rw [List.all_eq_true] at h8
    simpa using h8 d hd
  · intro hk; rw [hk] at h9; simpa using h9
  · intro hk; rw [hk] at h10; simpa using h10

theorem knows_of {W : Route} {s : Tree} (h : stationsB W (fun q => wiredB (W.role q) (W.src (q - 1)) (W.dst q) (s.fwd (W.node q))) = true) :
    W.Knows s := fun q a b c => wired_of_wiredB (stations_of h q a b c)

def arrivesB (s : Tree) (m : Tmove) (B g : FedId) : Bool := (arriving s m).all fun x => decide (x.1 ≠ B) || !rewires g x.2

theorem of_arriving {s : Tree} {m : Tmove} {B g : FedId} (h : arrivesB s m B g = true) (cmd : Msg) (e : arriving s m = some (B, cmd)) :
    rewires g cmd = false := by
  unfold arrivesB at h
  rw [e] at h
  simpa using h

/-! ### the tree -/

def idA : FedId := 131072
def idB : FedId := 131073
def idC : FedId := 131074
/-- the root broker, and two cores -/
def root : FedId := 1
def coreP : FedId := 0x70000000
def coreQ : FedId := 0x70000001

/-- `n` is told that `c` is its child, and federate or core `c` that `n` is its parent
(src/helics/core/CommonCore.cpp:3804-3829, src/helics/core/CoreBroker.cpp:2188-2201) -/
def child (n c : FedId) : Tmove := .env n { action := .addInterdependency, source := c, dest := n, child := true }
def parent (n c : FedId) : Tmove := .env c { action := .addInterdependency, source := n, dest := c, parent := true }
def enter (i : FedId) : List Tmove := [.env i { action := .initGrant, dest := i }, .user i (.execRequest .noIterations)]
def ask (i : FedId) (t : Time) : Tmove := .user i (.timeRequest t .noIterations maxVal maxVal)
def pass (u v : FedId) (n : Nat) : List Tmove := List.replicate n (.deliver u v true)
def flush (u : FedId) (n : Nat) : List Tmove := List.replicate n (.flush u)
def strictly (i : FedId) : List Tmove := [.user i (.setFlag .restrictive true), .user i (.setFlag .uninterruptible true)]

def yes : FedId → Bool := fun _ => true
def no : FedId → Bool := fun _ => false
def notRoot (n : FedId) : Bool := n != root

/-! #### two federates on different cores

`A` and `C` belong to core `P`, `B` to core `Q`, both cores to the root. -/

/-- the neighbour that is next on the way to `d` -/
def hop2 (n d : FedId) : FedId :=
  if n = root then (if d = idB ∨ d = coreQ then coreQ else coreP)
  else if n = coreP then (if d = idA then idA else if d = idC then idC else root)
  else if n = coreQ then (if d = idB then idB else root)
  else if n = idB then coreQ else coreP

/-- the route from `A` over core `P`, the root and core `Q` to `B` -/
def route2 : Route where
  len := 4
  node := fun q => match q with | 0 => idA | 1 => coreP | 2 => root | 3 => coreQ | _ => idB
  station := fun _ => true
  role := fun q => match q with | 1 => .up | 2 => .root | _ => .down
  dst := fun q => match q with | 0 => coreP | 1 => root | 2 => coreQ | _ => idB

/-- a statement about all places of a short route -/
theorem below4 {P : Nat → Prop} (h0 : P 0) (h1 : P 1) (h2 : P 2) (h3 : P 3) : ∀ q, q < 4 → P q := by
  intro q hq
  match q, hq with
  | 0, _ => exact h0
  | 1, _ => exact h1
  | 2, _ => exact h2
  | 3, _ => exact h3

theorem route2_ok : route2.Ok hop2 idA idB where
  first := rfl
  last := rfl
  long := by decide
  ends := rfl
  sender := by decide
  receiver := by decide
  differ := by decide
  inner := fun q h0 hq => below4 (P := fun q => 0 < q → FedId.isFederate (route2.node q) = false) (by decide) (by decide) (by decide) (by decide) q hq h0
  target := fun q hq => below4 (P := fun q => route2.dst q = if route2.station (q + 1) then route2.node (q + 1) else route2.dst (q + 1)) rfl rfl rfl rfl q hq
  relay := fun _ _ _ h => nomatch h
  route := fun q hq => below4 (P := fun q => hop2 (route2.node q) (route2.dst q) = route2.node (q + 1)) (by decide) (by decide) (by decide) (by decide) q hq
  once := fun i j hi hj e e' =>
    below4 (P := fun i => ∀ j, j < 4 → route2.node i = route2.node j → route2.node (i + 1) = route2.node (j + 1) → i = j)
      (below4 (by decide) (by decide) (by decide) (by decide)) (below4 (by decide) (by decide) (by decide) (by decide))
      (below4 (by decide) (by decide) (by decide) (by decide)) (below4 (by decide) (by decide) (by decide) (by decide)) i hi j hj e e'
  enter := by decide
  data := fun q h0 hq => ⟨q, Nat.le_refl _, hq, rfl,
    below4 (P := fun q => 0 < q → hop2 (route2.node q) idB = route2.node (q + 1)) (by decide) (by decide) (by decide) (by decide) q hq h0⟩

def wires2 : List Tmove := [child coreP idA, child coreP idC, child coreQ idB, child root coreP, child root coreQ, parent root coreP, parent root coreQ]
def tree2 : Tree := wired yes no no notRoot yes hop2 100 wires2

/-- all enter executing mode -/
def begin2 : List Tmove :=
  strictly idA ++ strictly idB ++ strictly idC ++ [parent coreP idA, parent coreP idC, parent coreQ idB, .start coreP, .start coreQ, .start root] ++
  enter idA ++ enter idB ++ enter idC ++
  pass idA coreP 2 ++ pass idC coreP 2 ++ pass idB coreQ 2 ++ flush coreP 4 ++ flush coreQ 3 ++ pass coreP root 2 ++ pass coreQ root 2 ++ flush root 4 ++
  pass root coreP 2 ++ pass root coreQ 2 ++ flush coreP 4 ++ flush coreQ 3 ++ pass coreP idA 2 ++ pass coreP idC 2 ++ pass coreQ idB 2 ++
  pass idA coreP 1 ++ pass idC coreP 1 ++ pass idB coreQ 1 ++ pass coreP root 2 ++ pass coreQ root 2

/-- `A` and `C` ask for 5, `B` asks for 3 -/
def pre2 : List Tmove :=
  begin2 ++ [ask idA 5, ask idC 5] ++
  pass idA coreP 1 ++ pass idC coreP 1 ++ flush coreP 3 ++ pass coreP root 2 ++ flush root 3 ++ pass root coreP 1 ++ pass root coreQ 2 ++ flush coreQ 2 ++
  pass coreP idC 1 ++ pass coreQ idB 1 ++ pass coreQ root 1 ++ [ask idB 3] ++
  pass idB coreQ 1 ++ flush coreQ 1 ++ pass coreQ root 1 ++ flush root 1 ++ pass root coreQ 1 ++ flush coreQ 2

/-- after `B` has been granted 3, `B` asks for 10, `A` is granted 5 and sends a message to `B`, which travels as far as the root -/
def post2 : List Tmove :=
  pass idB coreQ 1 ++ flush coreQ 1 ++ pass coreQ root 2 ++ flush root 2 ++ pass root coreQ 2 ++ flush coreQ 4 ++ pass coreQ idB 2 ++ pass coreQ root 2 ++
  [ask idB 10] ++ pass idB coreQ 1 ++ flush coreQ 1 ++ pass coreQ root 1 ++ flush root 1 ++ pass root coreP 1 ++ flush coreP 3 ++
  pass coreP idA 1 ++ pass coreP idC 1 ++ pass idA coreP 1 ++ pass idC coreP 1 ++ flush coreP 1 ++ pass coreP root 2 ++ flush root 2 ++ pass root coreP 2 ++
  flush coreP 4 ++ pass coreP idA 1 ++ pass coreP idC 1 ++ [.send idA idB 0 true] ++ pass idA coreP 2

/-- the history the witness uses is legal -/
theorem legal2 : legalB route2 idA hop2 100 tree2 (pre2 ++ .deliver coreQ idB true :: post2) = true := by decide +kernel

/-- The theorem at work: `B` is granted 3; later `A` sends a message with time 5, which then is on its way on core `P`. -/
example : (3 : Time) ≤ 5 + ((tree2.run hop2 100 pre2).fed idB).tc.info.inputDelay :=
  C49_restrictive idA idB route2 hop2 route2_ok 100 yes no no notRoot yes wires2 (by decide +kernel) (knows_of (by decide +kernel))
    (fun _ _ _ _ => rfl) pre2 (.deliver coreQ idB true) post2 (legal_of_legalB legal2) (tree2.run hop2 100 pre2) _ rfl rfl (by decide +kernel) (by decide +kernel)
    (by decide +kernel) (of_arriving (m := .deliver coreQ idB true) (s := tree2.run hop2 100 pre2) (B := idB) (g := coreQ) (by decide +kernel)) (by decide +kernel)
    3 (by decide +kernel) 5 true coreP root (by decide +kernel) (by unfold far; decide +kernel)

/-! #### two federates of one core

`A` and `B` belong to core `P`, `C` to core `Q`, both cores to the root.  The timing commands from `A` to `B` go by way of the
root, the data does not. -/

/-- the neighbour that is next on the way to `d` -/
def hop1 (n d : FedId) : FedId :=
  if n = root then (if d = idC ∨ d = coreQ then coreQ else coreP)
  else if n = coreP then (if d = idA then idA else if d = idB then idB else root)
  else if n = coreQ then (if d = idC then idC else root)
  else if n = idC then coreQ else coreP

/-- the route from `A` over core `P`, the root and core `P` to `B` -/
def route1 : Route where
  len := 4
  node := fun q => match q with | 0 => idA | 1 => coreP | 2 => root | 3 => coreP | _ => idB
  station := fun _ => true
  role := fun q => match q with | 1 => .up | 2 => .root | _ => .down
  dst := fun q => match q with | 0 => coreP | 1 => root | 2 => coreP | _ => idB

theorem route1_ok : route1.Ok hop1 idA idB where
  first := rfl
  last := rfl
  long := by decide
  ends := rfl
  sender := by decide
  receiver := by decide
  differ := by decide
  inner := fun q h0 hq => below4 (P := fun q => 0 < q → FedId.isFederate (route1.node q) = false) (by decide) (by decide) (by decide) (by decide) q hq h0
  target := fun q hq => below4 (P := fun q => route1.dst q = if route1.station (q + 1) then route1.node (q + 1) else route1.dst (q + 1)) rfl rfl rfl rfl q hq
  relay := fun _ _ _ h => nomatch h
  route := fun q hq => below4 (P := fun q => hop1 (route1.node q) (route1.dst q) = route1.node (q + 1)) (by decide) (by decide) (by decide) (by decide) q hq
  once := fun i j hi hj e e' =>
    below4 (P := fun i => ∀ j, j < 4 → route1.node i = route1.node j → route1.node (i + 1) = route1.node (j + 1) → i = j)
      (below4 (by decide) (by decide) (by decide) (by decide)) (below4 (by decide) (by decide) (by decide) (by decide))
      (below4 (by decide) (by decide) (by decide) (by decide)) (below4 (by decide) (by decide) (by decide) (by decide)) i hi j hj e e'
  enter := by decide
  data := fun q h0 hq => below4 (P := fun q => 0 < q → ∃ j, q ≤ j ∧ j < route1.len ∧ route1.node j = route1.node q ∧ hop1 (route1.node q) idB = route1.node (j + 1))
    (fun h => absurd h (by decide)) (fun _ => ⟨3, by decide, by decide, rfl, by decide⟩) (fun _ => ⟨2, by decide, by decide, rfl, by decide⟩)
    (fun _ => ⟨3, by decide, by decide, rfl, by decide⟩) q hq h0

def wires1 : List Tmove := [child coreP idA, child coreP idB, child coreQ idC, child root coreP, child root coreQ, parent root coreP, parent root coreQ]
def tree1 : Tree := wired yes no no notRoot yes hop1 100 wires1

/-- all enter executing mode, `A` and `C` ask for 5, `B` asks for 3 -/
def pre1 : List Tmove :=
  strictly idA ++ strictly idB ++ strictly idC ++ [parent coreP idA, parent coreP idB, parent coreQ idC, .start coreP, .start coreQ, .start root] ++
  enter idA ++ enter idB ++ enter idC ++
  pass idA coreP 2 ++ pass idB coreP 2 ++ pass idC coreQ 2 ++ flush coreP 4 ++ flush coreQ 3 ++ pass coreP root 2 ++ pass coreQ root 2 ++ flush root 4 ++
  pass root coreP 2 ++ pass root coreQ 2 ++ flush coreP 4 ++ flush coreQ 3 ++ pass coreP idA 2 ++ pass coreP idB 2 ++ pass coreQ idC 2 ++ pass idA coreP 1 ++
  pass idB coreP 1 ++ pass idC coreQ 1 ++ pass coreP root 2 ++ pass coreQ root 2 ++ [ask idA 5, ask idC 5] ++ pass idA coreP 1 ++ pass idC coreQ 1 ++
  flush coreP 2 ++ flush coreQ 1 ++ pass coreP root 1 ++ pass coreQ root 1 ++ flush root 3 ++ pass root coreP 2 ++ pass root coreQ 1 ++ pass coreP idB 1 ++
  [ask idB 3] ++ pass idB coreP 1 ++ flush coreP 1 ++ pass coreP root 1 ++ flush root 1 ++ pass root coreP 1 ++ flush coreP 2

/-- `B` asks for 10, `A` is granted 5 and sends a message, which arrives on its core before the commands that announce the grant have come back -/
def post1 : List Tmove :=
  pass idB coreP 1 ++ flush coreP 1 ++ pass coreP root 2 ++ flush root 2 ++ pass root coreP 2 ++ flush coreP 4 ++ pass coreP idB 2 ++ pass coreP root 2 ++
  [ask idB 10] ++ pass idB coreP 1 ++ flush coreP 1 ++ pass coreP root 1 ++ flush root 2 ++ pass root coreP 1 ++ pass root coreQ 1 ++ flush coreP 2 ++
  flush coreQ 2 ++ pass coreP idA 1 ++ [.send idA idB 0 true] ++ pass idA coreP 2

theorem legal1 : legalB route1 idA hop1 100 tree1 (pre1 ++ .deliver coreP idB true :: post1) = true := by decide +kernel

example : (3 : Time) ≤ 5 + ((tree1.run hop1 100 pre1).fed idB).tc.info.inputDelay :=
  C49_restrictive idA idB route1 hop1 route1_ok 100 yes no no notRoot yes wires1 (by decide +kernel) (knows_of (by decide +kernel))
    (fun _ _ _ _ => rfl) pre1 (.deliver coreP idB true) post1 (legal_of_legalB legal1) (tree1.run hop1 100 pre1) _ rfl rfl (by decide +kernel) (by decide +kernel)
    (by decide +kernel) (of_arriving (m := .deliver coreP idB true) (s := tree1.run hop1 100 pre1) (B := idB) (g := coreP) (by decide +kernel)) (by decide +kernel)
    3 (by decide +kernel) 5 true coreP idB (by decide +kernel) (by unfold far; decide +kernel)

/-- The same federation, coordinators of cores and brokers without the restrictive policy. -/
def tree1' : Tree := wired yes no no notRoot no hop1 100 wires1

theorem legal1' : legalB route1 idA hop1 100 tree1' (pre1 ++ .deliver coreP idB true :: post1) = true := by decide +kernel

example : (3 : Time) ≤ max 5 ((tree1'.run hop1 100 pre1).fed idB).tc.granted + ((tree1'.run hop1 100 pre1).fed idB).tc.info.inputDelay :=
  (C49_uninterruptible idA idB route1 hop1 route1_ok 100 yes no no notRoot no wires1 (by decide +kernel) (knows_of (by decide +kernel))
    pre1 (.deliver coreP idB true) post1 (legal_of_legalB legal1') (tree1'.run hop1 100 pre1) _ rfl rfl (by decide +kernel) (by decide +kernel)
    (by decide +kernel) (of_arriving (m := .deliver coreP idB true) (s := tree1'.run hop1 100 pre1) (B := idB) (g := coreP) (by decide +kernel))
    3 (by decide +kernel) 5 true coreP idB (by decide +kernel) (by unfold far; decide +kernel)).1

/-! ### where it fails -/

/-- As `Legal`, but stations may have dependencies that wait for the current time. -/
def LegalDelayed (F : Prop) (W : Route) (A B : FedId) (hop : FedId → FedId → FedId) (limit : Int) : Tree → List Tmove → Prop
  | _, [] => True
  | s, m :: ms => Fair F W A B s m ∧ Binding F (s.fed A) ∧ LegalDelayed F W A B hop limit (s.step hop limit m).1 ms

def legalDelayedB (W : Route) (A : FedId) (hop : FedId → FedId → FedId) (limit : Int) : Tree → List Tmove → Bool
  | _, [] => true
  | s, m :: ms => fairB W s m && bindingB (s.fed A) && legalDelayedB W A hop limit (s.step hop limit m).1 ms

theorem legalDelayed_of {F : Prop} {W : Route} {A B : FedId} {hop : FedId → FedId → FedId} {limit : Int} {s : Tree} {ms : List Tmove}
    (h : legalDelayedB W A hop limit s ms = true) : LegalDelayed F W A B hop limit s ms := by
  induction ms generalizing s with
  | nil => trivial
  | cons m ms ih =>
    simp only [legalDelayedB, Bool.and_eq_true] at h
    obtain ⟨⟨h1, h2⟩, h4⟩ := h
    refine ⟨fair_of_fairB h1, ?_, ih h4⟩
    intro e
    unfold bindingB at h2
    rw [e] at h2
    simp at h2
    exact ⟨.inl h2.1, fun _ => h2.2⟩

/-- `C` is coordinated by the root itself: the only federate of core `Q`, which therefore takes no part in the timing
(src/helics/core/CommonCore.cpp:4340-4440) -/
def wires3 : List Tmove := [child coreP idA, child coreP idB, child root coreP, child root idC, parent root coreP]
def tree3 : Tree := wired yes no no notRoot yes hop1 100 wires3

/-- `C` waits for current time updates.  All enter executing mode, `A` and `B` are granted 1, `C` asks for 20. -/
def pre3 : List Tmove :=
  strictly idA ++ strictly idB ++ strictly idC ++ [.user idC (.setFlag .waitForCurrent true)] ++
  [parent coreP idA, parent coreP idB, parent root idC, .start coreP, .start root] ++ enter idA ++ enter idB ++ enter idC ++
  pass idA coreP 2 ++ pass idB coreP 2 ++ pass idC coreQ 2 ++ flush coreP 4 ++ pass coreP root 2 ++ pass coreQ root 2 ++ flush root 4 ++ pass root coreP 2 ++
  pass root coreQ 2 ++ flush coreP 4 ++ pass coreP idA 2 ++ pass coreP idB 2 ++ pass coreQ idC 2 ++ pass idA coreP 1 ++ pass idB coreP 1 ++ pass coreP root 2 ++
  [ask idA 1, ask idB 1] ++ pass idA coreP 1 ++ pass idB coreP 1 ++ flush coreP 3 ++ pass coreP root 2 ++ flush root 1 ++ pass root coreQ 1 ++
  pass coreP idB 1 ++ pass coreQ idC 1 ++ pass idC coreQ 1 ++ pass coreQ root 1 ++ [ask idC 20] ++ pass idC coreQ 1 ++ pass coreQ root 1 ++ flush root 1 ++
  pass root coreP 1 ++ flush coreP 3 ++ pass coreP idA 1 ++ pass coreP idB 1 ++ pass idA coreP 1 ++ pass idB coreP 1 ++ flush coreP 3 ++ pass coreP root 2 ++
  flush root 2 ++ pass root coreP 2 ++ flush coreP 4 ++ pass coreP idA 2 ++ pass coreP idB 2 ++ flush coreP 2 ++ pass coreP root 2 ++ flush root 2 ++
  pass root coreP 2 ++ pass coreP idA 1 ++ pass coreP idB 1

theorem legal3 : legalDelayedB route1 idA hop1 100 tree3 (pre3 ++ ask idB 10 :: [.send idA idB 0 true]) = true := by decide +kernel

/-- **C49 fails when a third federate waits for current time updates.**  The root tells core `P` the time of the others without
that of `P` itself (src/helics/core/ForwardingTimeCoordinator.cpp:97-124), and `P` tells its federates: `B` is granted 10 although
`A`, on the same core, was granted 1 and can still send: its next message carries time 1. -/
theorem C49_delayed_fails : route1.Ok hop1 idA idB ∧ route1.Knows tree3 ∧
    LegalDelayed False route1 idA idB hop1 100 tree3 (pre3 ++ ask idB 10 :: [.send idA idB 0 true]) ∧
    ((tree3.run hop1 100 pre3).fed idB).state = .executing ∧ ((tree3.run hop1 100 pre3).fed idB).tc.deps.isDependency coreP = true ∧
    strict ((tree3.run hop1 100 pre3).fed idB) = true ∧ ((tree3.run hop1 100 pre3).step hop1 100 (ask idB 10)).2 = some (idB, 10) ∧
    .data 1 idA idB true ∈ (tree3.run hop1 100 (pre3 ++ ask idB 10 :: [.send idA idB 0 true])).chan idA coreP ∧
    far ((tree3.run hop1 100 pre3).fed idB).tc.info 1 ∧ 1 + ((tree3.run hop1 100 pre3).fed idB).tc.info.inputDelay < 10 :=
  ⟨route1_ok, knows_of (by decide +kernel), legalDelayed_of legal3, by decide +kernel, by decide +kernel, by decide +kernel, by decide +kernel,
    by decide +kernel, by unfold far; decide +kernel, by decide +kernel⟩

end Tree
end Verif
