import Verif.Props.TreeEntry
import Verif.Props.TreeCases
/-!
# C50: cases

Two federations to which `C50_waits` applies, and one in which it must not and does not hold.
-/
namespace Verif
namespace Tree
open Causal Causality Deps Fed TC Fwd

/-! ### checks that can be evaluated -/

/-- `Fair`, for histories of the simplest kind -/
def entryFairB (s : Tree) : Tmove → Bool
  | .user i o => byUser o && (match o with
    | .timeRequest t _ _ _ => decide (t ≤ maxVal)
    | .execRequest _ => true
    | .setFlag _ _ => true
    | _ => false)
  | .env n cmd => FedId.isFederate n && decide (cmd.actionTime ≤ maxVal) && cmd.action != .execRequest && cmd.action != .timeRequest && !asked cmd
  | .send _ _ _ _ => true
  | .deliver u v _ => (s.chan u v).head?.all (fun x => decide (x.time ≤ maxVal) && (match x with
    | .cmd m => !rewiring m && ((m.action != .timeRequest && m.action != .timeGrant) || decide (0 ≤ m.actionTime))
    | _ => true))
  | .flush _ => true
  | .start n => !(s.fwd n).core || (s.fwd n).deps.hasActive
  | .leave _ => false

theorem entryFair_of {K : Branches} {A : FedId} (hW : Who K A) {s0 s : Tree} {m : Tmove} (h : entryFairB s m = true) : K.Fair A s0 s m := by
  cases m with
  | user i o =>
    simp only [entryFairB, Bool.and_eq_true] at h
    refine ⟨h.1, ?_⟩
    have h3 := h.2
    cases o <;> simp at h3 <;> first | exact h3 | trivial
  | env n cmd =>
    simp only [entryFairB, Bool.and_eq_true, decide_eq_true_eq, bne_iff_ne, Bool.not_eq_true'] at h
    obtain ⟨⟨⟨⟨h1, h2⟩, h3⟩, h4⟩, h5⟩ := h
    refine ⟨fun _ => ⟨h2, fun e => ?_⟩, fun hi => ?_, fun _ => h5⟩
    · rcases e.1 with e | e
      · exact h3 e
      · exact h4 e
    · exfalso
      rcases hi with ⟨a, b⟩ | a
      · rcases hW.up n a with e | e
        · exact b e
        · rw [h1] at e; cases e
      · rw [hW.down n a] at h1; cases h1
  | deliver u v n =>
    simp only [entryFairB] at h
    refine ⟨?_, ?_⟩
    · intro x hx
      rw [Option.mem_def] at hx
      rw [hx] at h
      simp only [Option.all_some, Bool.and_eq_true, decide_eq_true_eq] at h
      exact h.1
    · intro _ m hm _
      rw [Option.mem_def] at hm
      rw [hm] at h
      simp only [Option.all_some, Bool.and_eq_true, Bool.not_eq_true', Bool.or_eq_true, bne_iff_ne, decide_eq_true_eq] at h
      refine ⟨h.2.1, fun e => ?_⟩
      rcases h.2.2 with k | k
      · rcases e with e | e
        · exact absurd e k.1
        · exact absurd e k.2
      · exact k
  | send => trivial
  | flush => trivial
  | start n =>
    intro _ hc
    simpa [entryFairB, hc] using h
  | leave n => cases h

/-- `Legal`, checked; `ups` are the cores and brokers above `A` -/
def entryLegalB (ups : List FedId) (hop : FedId → FedId → FedId) (limit : Int) : Tree → List Tmove → Bool
  | _, [] => true
  | s, m :: ms => entryFairB s m && ups.all (fun n => !((s.step hop limit m).1.fwd n).hasDelayed) && entryLegalB ups hop limit (s.step hop limit m).1 ms

theorem entryLegal_of {K : Branches} {A : FedId} {ups : List FedId} {hop : FedId → FedId → FedId} {limit : Int} {s0 s : Tree} {ms : List Tmove} (hW : Who K A)
    (hu : ∀ n, K.up n → n ≠ A → n ∈ ups) (h : entryLegalB ups hop limit s ms = true) : K.Legal A hop limit s0 s ms := by
  induction ms generalizing s with
  | nil => trivial
  | cons m ms ih =>
    simp only [entryLegalB, Bool.and_eq_true, List.all_eq_true] at h
    obtain ⟨⟨h1, h2⟩, h3⟩ := h
    refine ⟨entryFair_of hW h1, fun n hn hA => ?_, ih h3⟩
    simpa using h2 n (hu n hn hA)

/-- `DependsOn`, checked -/
def dependsOnB (w : Fwd) (g : FedId) (parent : Bool) : Bool :=
  w.deps.any fun d => d.fedID == g && d.dependency && d.connection != .self && ((d.connection == .parent) == parent)

theorem dependsOn_of {w : Fwd} {g : FedId} {parent : Bool} (h : dependsOnB w g parent = true) : DependsOn w g parent := by
  unfold dependsOnB at h
  rw [List.any_eq_true] at h
  obtain ⟨d, hd, h⟩ := h
  simp only [Bool.and_eq_true, beq_iff_eq, bne_iff_ne] at h
  obtain ⟨⟨⟨h1, h2⟩, h3⟩, h4⟩ := h
  refine ⟨d, hd, h1, h2, h3, ?_⟩
  rw [← h4, beq_iff_eq]

/-! ### the branches of the trees of C49 -/

/-- core `P` and the root are above `A`; core `Q` is on another branch -/
def branches : Branches where
  up n := n = idA ∨ n = coreP ∨ n = root
  down n := n = coreQ

/-- the nodes of `branches` are connected as `Placed` says -/
def placedB (s : Tree) : Bool :=
  dependsOnB (s.fwd coreP) idA false && !(s.fwd coreP).noParent && dependsOnB (s.fwd coreP) root true &&
  dependsOnB (s.fwd root) coreP false && (s.fwd root).noParent && (s.fwd root).deps.all (fun d => d.connection != .parent) &&
  !(s.fwd coreQ).noParent && dependsOnB (s.fwd coreQ) root true

theorem placed_of {s : Tree} (h : placedB s = true) : branches.Placed idA s := by
  simp only [placedB, Bool.and_eq_true, Bool.not_eq_true', List.all_eq_true, bne_iff_ne] at h
  obtain ⟨⟨⟨⟨⟨⟨⟨h1, h2⟩, h3⟩, h4⟩, h5⟩, h6⟩, h7⟩, h8⟩ := h
  refine ⟨by decide, .inl rfl, ?_, ?_⟩
  · intro n hn hA
    rcases hn with rfl | rfl | rfl
    · exact absurd rfl hA
    · exact ⟨by decide, ⟨idA, .inl rfl, by decide, dependsOn_of h1⟩, .inr ⟨h2, root, .inr (.inr rfl), by decide, dependsOn_of h3⟩⟩
    · exact ⟨by decide, ⟨coreP, .inr (.inl rfl), by decide, dependsOn_of h4⟩, .inl ⟨h5, h6⟩⟩
  · intro n hn
    cases hn
    exact ⟨by decide, h7, root, .inl (.inr (.inr rfl)), by decide, dependsOn_of h8⟩

theorem ups_of : ∀ n, branches.up n → n ≠ idA → n ∈ [coreP, root] := by
  intro n hn hA
  rcases hn with rfl | rfl | rfl
  · exact absurd rfl hA
  · simp
  · simp

theorem who_branches : Who branches idA where
  sender := by decide
  up n hn := by
    rcases hn with rfl | rfl | rfl
    · exact .inl rfl
    · exact .inr (by decide)
    · exact .inr (by decide)
  down n hn := by cases hn; decide

/-- Federates `A` and `B` on different cores: `B` depends on core `Q`, and enters executing mode by the 56th move of `begin2`. -/
example : HasAsked idA (tree2.run hop2 100 (begin2.take 55 ++ [.deliver coreQ idB true])) :=
  C50_waits branches idA idB coreQ hop2 100 yes no no notRoot yes wires2 (by decide +kernel) tree2 rfl (placed_of (by decide +kernel)) (by decide) (by decide)
    (.inr ⟨rfl, by decide, by decide +kernel⟩) (begin2.take 55) (.deliver coreQ idB true)
    (entryLegal_of who_branches ups_of (by decide +kernel)) (tree2.run hop2 100 (begin2.take 55)) _ rfl rfl (by decide +kernel)
    (of_arriving (m := .deliver coreQ idB true) (s := tree2.run hop2 100 (begin2.take 55)) (B := idB) (g := coreQ) (by decide +kernel))
    (.inl (by decide +kernel)) (by decide +kernel) (by decide +kernel)

/-- Federates `A` and `B` on the same core, which is then above `A`. -/
example : HasAsked idA (tree1.run hop1 100 (pre1.take 53 ++ [.deliver coreP idB true])) :=
  C50_waits branches idA idB coreP hop1 100 yes no no notRoot yes wires1 (by decide +kernel) tree1 rfl (placed_of (by decide +kernel)) (by decide) (by decide)
    (.inl (.inr (.inl rfl))) (pre1.take 53) (.deliver coreP idB true)
    (entryLegal_of who_branches ups_of (by decide +kernel)) (tree1.run hop1 100 (pre1.take 53)) _ rfl rfl (by decide +kernel)
    (of_arriving (m := .deliver coreP idB true) (s := tree1.run hop1 100 (pre1.take 53)) (B := idB) (g := coreP) (by decide +kernel))
    (.inl (by decide +kernel)) (by decide +kernel) (by decide +kernel)

/-- ... and that announcement follows a request of the user of `A`. -/
example : ∃ o ∈ tree1.events hop1 100 idA (pre1.take 54), decides idA o = true :=
  C50_announced idA (by decide) hop1 100 yes no no notRoot yes wires1 (by decide +kernel) tree1 rfl (pre1.take 54)
    (fun i o h => by
      have : (pre1.take 54).all (fun m => match m with | .user _ o => byUser o | _ => true) = true := by decide +kernel
      rw [List.all_eq_true] at this
      exact this _ h)
    (by
      have : ((tree1.run hop1 100 (pre1.take 54)).fed idA).tc.out.any (fun p => p.msgs.any fun m => m.dest != parentBroker && asked m) = true := by decide +kernel
      rw [List.any_eq_true] at this
      obtain ⟨p, hp, h⟩ := this
      rw [List.any_eq_true] at h
      obtain ⟨m, hm, h⟩ := h
      simp only [Bool.and_eq_true, bne_iff_ne] at h
      exact ⟨p, hp, m, hm, h⟩)

/-! ### where it fails -/

/-- As `Legal`, but nodes above `A` may have dependencies that wait for the current time. -/
def EntryDelayed (K : Branches) (A : FedId) (hop : FedId → FedId → FedId) (limit : Int) (s0 : Tree) : Tree → List Tmove → Prop
  | _, [] => True
  | s, m :: ms => K.Fair A s0 s m ∧ EntryDelayed K A hop limit s0 (s.step hop limit m).1 ms

def entryDelayedB (hop : FedId → FedId → FedId) (limit : Int) : Tree → List Tmove → Bool
  | _, [] => true
  | s, m :: ms => entryFairB s m && entryDelayedB hop limit (s.step hop limit m).1 ms

theorem entryDelayed_of {K : Branches} {A : FedId} {hop : FedId → FedId → FedId} {limit : Int} {s0 s : Tree} {ms : List Tmove} (hW : Who K A)
    (h : entryDelayedB hop limit s ms = true) : EntryDelayed K A hop limit s0 s ms := by
  induction ms generalizing s with
  | nil => trivial
  | cons m ms ih =>
    simp only [entryDelayedB, Bool.and_eq_true] at h
    exact ⟨entryFair_of hW h.1, ih h.2⟩

def idD : FedId := 131075
/-- the federate that waits for current time updates -/
def idW : FedId := 131076

/-- `A` and `D` belong to core `P`, `B` and `C` to core `Q`, both cores to the root; `W` is coordinated by the root itself. -/
def hop4 (n d : FedId) : FedId :=
  if n = root then (if d = idC ∨ d = coreQ ∨ d = idB then coreQ else if d = idW then idW else coreP)
  else if n = coreP then (if d = idA then idA else if d = idD then idD else root)
  else if n = coreQ then (if d = idC then idC else if d = idB then idB else root)
  else if n = idC ∨ n = idB then coreQ else if n = idW then root else coreP

def wires4 : List Tmove :=
  [child coreP idA, child coreP idD, child coreQ idC, child coreQ idB, child root coreP, child root coreQ, child root idW, parent root coreP, parent root coreQ]
def tree4 : Tree := wired yes no no notRoot yes hop4 100 wires4

/-- everything that can be passed on is passed on, `n` times over -/
def pump4 (n : Nat) : List Tmove := (List.replicate n (
  pass idD coreP 2 ++ pass idB coreQ 2 ++ pass idC coreQ 2 ++ pass idW root 2 ++ flush coreP 4 ++ flush coreQ 4 ++ pass coreP root 3 ++
  pass coreQ root 3 ++ flush root 4 ++ pass root coreP 3 ++ pass root coreQ 3 ++ pass root idW 3 ++ flush coreP 4 ++ flush coreQ 4 ++ pass coreP idA 3 ++
  pass coreP idD 3 ++ pass coreQ idC 3 ++ pass coreQ idB 3)).flatten

/-- `W` waits for current time updates.  All but `A` ask to enter executing mode. -/
def begin4 : List Tmove :=
  [.user idW (.setFlag .waitForCurrent true), parent coreP idA, parent coreP idD, parent coreQ idB, parent coreQ idC, parent root idW,
    .start coreP, .start coreQ, .start root, .env idA { action := .initGrant, dest := idA }] ++
  enter idB ++ enter idC ++ enter idD ++ pump4 3 ++ enter idW ++ pump4 6

/-- **C50 fails when some federate waits for current time updates.**  The root tells core `P`, which is
not ready, how things are without it (src/helics/core/ForwardingTimeCoordinator.cpp:97-106): the others have asked.  Core `P` passes this on to
all its neighbours, its parent among them (src/helics/core/ForwardingTimeCoordinator.cpp:251-264): the root takes core `P` for ready and lets
everybody in.  `B` enters executing mode although the user of `A` has not asked to. -/
theorem C50_delayed_fails : branches.Placed idA tree4 ∧ branches.silent tree4 coreQ idB ∧ EntryDelayed branches idA hop4 100 tree4 tree4 begin4 ∧
    ((tree4.run hop4 100 begin4).fed idB).state = .executing ∧ ((tree4.run hop4 100 begin4).fed idB).tc.deps.isDependency coreQ = true ∧
    ((tree4.run hop4 100 begin4).fed idB).tc.info.waitForCurrent = false ∧ ¬ HasAsked idA (tree4.run hop4 100 begin4) := by
  refine ⟨placed_of (by decide +kernel), .inr ⟨rfl, by decide, by decide +kernel⟩, entryDelayed_of who_branches (by decide +kernel), by decide +kernel,
    by decide +kernel, by decide +kernel, ?_⟩
  have : ((tree4.run hop4 100 begin4).fed idA).tc.out.all (fun p => p.msgs.all fun m => m.dest == parentBroker || !asked m) = true := by decide +kernel
  rintro ⟨p, hp, m, hm, hd, ha⟩
  rw [List.all_eq_true] at this
  have := this p hp
  rw [List.all_eq_true] at this
  have := this m hm
  rw [ha] at this
  simp [hd] at this

end Tree
end Verif
