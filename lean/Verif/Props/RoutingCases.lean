import Verif.Props.RoutingProps
/-!
# C55: histories that meet the hypotheses, and histories that show they are needed
-/
namespace Verif.Routes

/-- the events of a history only concern the nodes below `M` -/
def Ev.within (M : Nat) : Ev → Bool
  | .connect n => decide (n < M)
  | .join n .. => decide (n < M)
  | .leave n _ => decide (n < M)
  | .send n .. => decide (n < M)
  | .take .. => true

variable {net : Net} {s : Sys}

theorem Fits.at (h : net.Ok) (K : Inv net s) {M : Nat} (F : Fits M s) (e : Ev) (hw : e.within M = true)
    (hs : Small (s.step net e)) : Fits M (s.step net e) := by
  have par : ∀ n, n < M → net.par n < M := by
    intro n hn
    by_cases e : n = 0
    · subst e; rw [h.root]; exact hn
    · exact Nat.lt_trans (h.below n e) hn
  have soft : ∀ {v p : Node} {x : NodeSt} {c : Cmd}, v < M → p < M → Fits M ((s.setNode v x).put v p c) := by
    intro v p x c hv hp
    refine ⟨fun a b hn => ?_, fun q hq => ?_⟩
    · rw [put_link] at hn
      by_cases e : a = v ∧ b = p
      · obtain ⟨rfl, rfl⟩ := e; exact ⟨hv, hp⟩
      · rw [if_neg e] at hn
        exact F.links a b hn
    · by_cases e : q = v
      · subst e; exact hv
      · rw [put_node, setNode_ne _ _ e] at hq
        exact F.orgs q hq
  cases e with
  | connect n =>
    have hn : n < M := by simpa [Ev.within] using hw
    unfold Sys.step; simp only
    split
    · exact F
    · exact soft (c := .reg none (.brk n) false 0) hn (par n hn)
  | join n nm re g =>
    have hn : n < M := by simpa [Ev.within] using hw
    unfold Sys.step; simp only
    split
    · exact soft (x := { s.node n with feds := (s.node n).feds ++ [⟨nm, none, re, false⟩] }) hn (par n hn)
    · split
      · exact soft (x := { s.node n with
          feds := (s.node n).feds.map (fun l => if l.name = nm then { l with done := false } else l) }) hn (par n hn)
      · exact F
    · exact F
  | leave n nm =>
    have hn : n < M := by simpa [Ev.within] using hw
    refine ⟨fun a b => F.links a b, fun q hq => ?_⟩
    by_cases e : q = n
    · subst e; exact hn
    · have : (s.step net (.leave n nm)).node q = s.node q := upd_ne _ _ e
      rw [this] at hq
      exact F.orgs q hq
  | send n d p b =>
    have hn : n < M := by simpa [Ev.within] using hw
    unfold Sys.step; simp only
    split
    · exact F
    · rename_i hd
      have F' : Fits M ({ s with sent := s.sent ++ [⟨n, d, p, b⟩] } : Sys) := F.less rfl (fun _ _ h => h)
      refine F'.apply hn ?_ ?_
      · intro x hx
        simp only at hx
        unfold NodeSt.onPkt at hx
        split at hx
        · cases hx
        · split at hx
          · cases hx
          · simp only at hx
            split at hx
            · cases hx
            · rw [List.mem_singleton] at hx
              subst hx
              show (s.node n).getRoute (net.par n) d < M
              unfold NodeSt.getRoute
              split
              · exact par n hn
              · cases ht : (s.node n).table d with
                | none => exact par n hn
                | some c => exact (F.table h K.one hd ht).2
      · simp only; rw [onPkt_node]; exact ⟨rfl, id⟩
  | take u v first admit dyn =>
    cases hp : pick first (s.link u v) with
    | none => rw [take_none hp]; exact F
    | some r =>
      obtain ⟨pre, p, post⟩ := r
      obtain ⟨hl, _, hg, hf⟩ := pick_split hp
      have hm : Ev.moves s (.take u v first admit dyn) :=
        ⟨p, by rw [hl]; exact List.mem_append_right _ (List.mem_cons_self ..), hf⟩
      exact (drains_step h K F _ hm hs).1

theorem Fits.runAt (h : net.Ok) {M : Nat} (es : List Ev) : ∀ (s : Sys), Inv net s → Fits M s → NoReentry es →
    es.all (Ev.within M) = true → Small (s.run net es) → Fits M (s.run net es) := by
  induction es with
  | nil => intro s _ F _ _ _; exact F
  | cons e es ih =>
    intro s K F hr hw hs
    rw [List.all_cons, Bool.and_eq_true] at hw
    have hs1 : Small (s.step net e) := Nat.le_trans (count_run es (s.step net e)) hs
    obtain ⟨K1, _⟩ := K.step h e
      (fun n nm re g he => hr n nm re g (by rw [← he]; exact List.mem_cons_self ..)) hs1
    exact ih _ K1 (F.at h K e hw.1 hs1) (fun n nm re g hm => hr n nm re g (List.mem_cons_of_mem _ hm)) hw.2 hs

/-- ways to check the hypotheses of C55 on a given history -/
def causalB (net : Net) : Sys → List Ev → Bool
  | _, [] => true
  | s, e :: es => (match e with | .send n d _ _ => (s.know n).contains d | _ => true) && causalB net (s.step net e) es
theorem causal_of : ∀ (es : List Ev) (s : Sys), causalB net s es = true → Causal net s es := by
  intro es
  induction es with
  | nil => intro _ _; trivial
  | cons e es ih =>
    intro s h
    unfold causalB at h
    rw [Bool.and_eq_true] at h
    refine ⟨fun n d p b he => ?_, ih _ h.2⟩
    have h1 := h.1
    rw [he] at h1
    exact List.elem_iff.1 h1
def addressedB (net : Net) : Sys → List Ev → Bool
  | _, [] => true
  | s, e :: es => (match e with
    | .send _ d _ _ => d == rootId || (s.node 0).ents.any (fun x => x.id == some d)
    | _ => true) && addressedB net (s.step net e) es
theorem addressed_of : ∀ (es : List Ev) (s : Sys), addressedB net s es = true → Addressed net s es := by
  intro es
  induction es with
  | nil => intro _ _; trivial
  | cons e es ih =>
    intro s h
    unfold addressedB at h
    rw [Bool.and_eq_true] at h
    refine ⟨fun n d p b he => ?_, ih _ h.2⟩
    have h1 := h.1
    rw [he] at h1
    have h1 : (d == rootId || (s.node 0).ents.any (fun x => x.id == some d)) = true := h1
    simpa [Given] using h1
def reentB (es : List Ev) : Bool := es.all (fun e => match e with | .join _ _ re _ => !re | _ => true)
theorem noReentry_of {es : List Ev} (h : reentB es = true) : NoReentry es := by
  intro n nm re g hm
  have := List.all_eq_true.1 h _ hm
  simpa using this
theorem quiet_of (h : net.Ok) {es : List Ev} (hr : NoReentry es) (M : Nat) (hw : es.all (Ev.within M) = true)
    (hs : Small (Sys.start.run net es))
    (hq : (List.range M).all (fun u => (List.range M).all (fun v => ((Sys.start.run net es).link u v).isEmpty)) = true) :
    Quiet (Sys.start.run net es) := by
  have F := Fits.runAt h es Sys.start (Inv.start h) (Fits.start.mono (Nat.zero_le M)) hr hw hs
  intro u v
  by_cases hn : (Sys.start.run net es).link u v = []
  · exact hn
  · obtain ⟨hu, hv⟩ := F.links u v hn
    have := List.all_eq_true.1 hq u (List.mem_range.2 hu)
    have := List.all_eq_true.1 this v (List.mem_range.2 hv)
    exact List.isEmpty_iff.1 this

/-! A root, two brokers below it (1 and 2), two cores below the first (3 and 4), one below the second
(5). -/
def tree : Net where
  par := fun n => match n with | 1 => 0 | 2 => 0 | 3 => 1 | 4 => 1 | 5 => 2 | _ => 0
  core := fun n => decide (3 ≤ n)

theorem tree_ok : tree.Ok := by
  refine ⟨rfl, ?_, rfl, ?_⟩
  · intro n hn
    match n with
    | 0 => exact absurd rfl hn
    | 1 => decide
    | 2 => decide
    | 3 => decide
    | 4 => decide
    | 5 => decide
    | n + 6 => exact Nat.succ_pos _
  · intro n hn
    match n with
    | 0 => exact absurd rfl hn
    | 1 => decide
    | 2 => decide
    | 3 => decide
    | 4 => decide
    | 5 => decide
    | n + 6 => exact (by decide : tree.core 0 = false)

/-- every node takes one command from every neighbour -/
def sweep : List Ev :=
  [(1, 0), (2, 0), (3, 1), (4, 1), (5, 2), (0, 1), (0, 2), (1, 3), (1, 4), (2, 5)].map
    (fun e => .take e.1 e.2 false true true)
def sweeps : Nat → List Ev
  | 0 => []
  | n + 1 => sweep ++ sweeps n

/-- registration of all nodes and of three federates, the last of which is in a priority group -/
def setup : List Ev :=
  [.connect 3, .connect 1, .connect 2, .connect 4, .connect 5] ++ sweeps 6 ++
  [.join 3 "f" false 0, .join 5 "g" false 0] ++ sweeps 3 ++ [.join 4 "h" false 2] ++ sweeps 4

example : [1, 2, 3, 4, 5].map (fun n => ((Sys.start.run tree setup).node n).id) =
      [some 1879048192, some 1879048193, some 1879048194, some 1879048196, some 1879048195] ∧
    [3, 4, 5].map (fun n => ((Sys.start.run tree setup).node n).feds.map (fun l => (l.name, l.id))) =
      [[("f", some 131072)], [("h", some 200131074)], [("g", some 131073)]] := by decide +kernel

/-- Talk across the tree: from core 3 to the federate of core 5 (twice), from core 5 to the one of
core 4 and back to 3, from broker 1 to the root, and from the root to core 5.  Before that each of
them tells the others something, from which they learn of each other. -/
def talk : List Ev :=
  setup ++ [.send 0 131072 false 1, .send 0 131073 false 2, .send 0 200131074 false 3] ++ sweeps 3 ++
  [.send 3 131073 false 10, .send 3 131073 true 11, .send 5 200131074 false 12, .send 3 131073 false 13,
   .send 5 131072 false 14, .send 1 1 true 15, .send 0 1879048195 false 16, .leave 3 "f"] ++
  [.take 3 1 true true true] ++ sweeps 6

example : (Sys.start.run tree talk).got.map (fun g => (g.node, g.fed, g.body)) =
    [(3, some "f", 1), (5, some "g", 2), (4, some "h", 3), (0, none, 15), (5, none, 16),
     (4, some "h", 12), (5, some "g", 11), (3, some "f", 14), (5, some "g", 10), (5, some "g", 13)] := by decide +kernel

theorem talk_noReentry : NoReentry talk := noReentry_of (by decide +kernel)
theorem talk_small : Small (Sys.start.run tree talk) := by unfold Small; decide +kernel
theorem talk_causal : Causal tree Sys.start talk := causal_of _ _ (by decide +kernel)
theorem talk_addressed : Addressed tree Sys.start talk := addressed_of _ _ (by decide +kernel)
theorem talk_quiet : Quiet (Sys.start.run tree talk) :=
  quiet_of tree_ok talk_noReentry 6 (by decide +kernel) talk_small (by decide +kernel)

/-- the hypotheses of C55 are met by this history -/
example : ((Sys.start.run tree talk).got.map Got.pack).Perm ((Sys.start.run tree talk).sent.map Sent.pack) :=
  C55_received tree_ok talk talk_noReentry talk_addressed talk_small talk_quiet
example : gotFrom (Sys.start.run tree talk) 3 131073 false = [10, 13] :=
  (C55_order_all tree_ok talk talk_noReentry talk_causal talk_small talk_quiet 3 131073 false).trans
    (by decide +kernel)

/-- A federate may come back, if it asks for that, and if it comes back at another core then its
identifier has two holders: the theorems do not hold without `NoReentry`. -/
def comeBack : List Ev :=
  [.connect 1, .connect 3, .connect 4] ++ sweeps 6 ++ [.join 3 "f" true 0] ++ sweeps 4 ++
  [.leave 3 "f", .join 4 "f" true 0] ++ sweeps 4 ++ [.send 1 131072 false 7] ++ sweeps 2

theorem C55_rejoin_fails : Holds (Sys.start.run tree comeBack) 3 (some "f") 131072 ∧
    Holds (Sys.start.run tree comeBack) 4 (some "f") 131072 ∧
    -- the federate at 3 has ended, the one at 4 has not
    ((Sys.start.run tree comeBack).node 3).feds.map (·.done) = [true] ∧
    ((Sys.start.run tree comeBack).node 4).feds.map (·.done) = [false] ∧
    -- and yet what the broker above both sends to it goes to 3
    (Sys.start.run tree comeBack).got = [⟨3, some "f", 1, 131072, false, 7⟩] := by
  refine ⟨⟨⟨"f", some 131072, true, true⟩, by decide +kernel, rfl, rfl⟩,
    ⟨⟨"f", some 131072, true, false⟩, by decide +kernel, rfl, rfl⟩, ?_⟩
  decide +kernel

/-- If a node writes to an identifier it could not have heard of, what it sent first may go round
through the root while what it sent later takes the short way: order needs `Causal`, being given
out is not enough.  Here core 3 writes to the federate of core 4 while the identifier is on its way
from the root to broker 1. -/
def early : List Ev :=
  [.connect 1, .connect 3, .connect 4] ++ sweeps 6 ++ [.join 4 "h" false 0, .take 4 1 false true true,
   .take 1 0 false true true, .send 3 131072 false 1, .take 3 1 false true true, .take 0 1 false true true,
   .send 3 131072 false 2, .take 3 1 false true true, .take 1 4 false true true, .take 1 4 false true true] ++
  sweeps 3

theorem C55_order_needs_causal : Addressed tree Sys.start early ∧ NoReentry early ∧
    Small (Sys.start.run tree early) ∧
    sentTo (Sys.start.run tree early) 3 131072 false = [1, 2] ∧
    gotFrom (Sys.start.run tree early) 3 131072 false = [2, 1] := by
  refine ⟨addressed_of _ _ (by decide +kernel), noReentry_of (by decide +kernel), ?_, by decide +kernel, by decide +kernel⟩
  unfold Small; decide +kernel

/-- What is addressed to nobody is lost: `C55_received` needs `Addressed`. -/
theorem C55_nobody : (Sys.start.run tree (setup ++ [.send 3 999999 false 1] ++ sweeps 3)).sent.length = 1 ∧
    (Sys.start.run tree (setup ++ [.send 3 999999 false 1] ++ sweeps 3)).got = [] := by decide +kernel

end Verif.Routes
