import Verif.Lemmas.Net
/-!
# C06: nothing arrives in a federate's past

A federation is any number of federates exchanging commands and data in any interleaving (`Verif.Model.Net`).
When federate `B` is granted `T`, every value or message from a federate `A` that `B` depends on which is still on
its way, or is sent at any later moment of the history, carries a time stamp from which the input delay of `B`
leads to `T` or later.
-/
namespace Verif
namespace Causality
open Fed TC Deps Net Causal

/-- The calls a user can make. -/
def byUser : FedOp → Bool
  | .msg _ | .value _ | .message _ => false
  | _ => true

/-- The time an item carries. -/
def _root_.Verif.Item.time : Item → Time
  | .cmd m => m.actionTime
  | .data t _ => t

/-- Federate `g` has left and none of its data is on the way to `i`. -/
def Departed (s : Net) (g i : FedId) : Prop := ¬ (s.fed g).live ∧ ∀ t b, .data t b ∉ s.chan g i

/-- What the theorems assume of a move.  Times stay within the range of the time type.  Nobody uses the forced
grant, joins the running federation or changes the timing settings of an executing federate.  A core speaks for
the federate itself or for brokers, and for another federate only when that one has departed.  With `F`, federate
`A` asks for times without iteration. -/
def Fair (F : Prop) (A : FedId) (s : Net) : Move → Prop
  | .user i o => i ≠ parentBroker ∧ byUser o = true ∧ o.sane i ∧ calm (i = A ∧ F) (s.fed i) o
  | .core i cmd => i ≠ parentBroker ∧ cmd.sane i ∧ calm False (s.fed i) (.msg cmd) ∧
      (word cmd = .silent ∨ cmd.source = i ∨ cmd.source = parentBroker ∨ FedId.isBroker cmd.source = true ∨ Departed s cmd.source i)
  | .deliver i j _ => i ≠ parentBroker ∧ j ≠ parentBroker ∧ ∀ x ∈ (s.chan i j).head?, x.time ≤ maxVal
  | .send _ _ _ _ => True

/-- The settings that make announcements of a federate binding (C44): the restrictive time policy, or (`F`)
uninterruptible. -/
def Binding (F : Prop) (f : Fed) : Prop :=
  f.state = .executing → (f.tc.info.restrictive = true ∨ F) ∧ (F → f.tc.info.uninterruptible = true)

/-- A history with fair moves during which the announcements of `A` are binding. -/
def Legal (F : Prop) (A : FedId) (limit : Int) : Net → List Move → Prop
  | _, [] => True
  | s, m :: ms => Fair F A s m ∧ Binding F (s.fed A) ∧ Legal F A limit (s.step limit m).1 ms

/-! ### The invariant -/

theorem parts_eq (p : Packet) : p.parts = p.msgs := by cases p <;> rfl

/-- nothing among the first `k` items on the way, nor the receiver's table, lies after `X` -/
structure Bound (F : Prop) (A B : FedId) (s : Net) (X : Time) (k : Nat) : Prop where
  pos : 0 ≤ X
  table : Table F A X (s.fed B)
  way : ∀ n m, n < k → (s.chan A B)[n]? = some (.cmd m) → Within F X m

structure Pair (F : Prop) (A B : FedId) (s : Net) : Prop where
  inv : ∀ i, i ≠ parentBroker → Inv (s.fed i) ∧ (s.fed i).tc.self = i
  ok : Ok F (s.fed A)
  fit : ∀ i j m, i ≠ parentBroker → .cmd m ∈ s.chan i j → Fit i m ∧ m.dest = j
  flight : ∀ k t b, (s.chan A B)[k]? = some (.data t b) → Bound F A B s t k
  floor : (s.fed A).live → Pol F (s.fed A) → Bound F A B s (s.fed A).floor (s.chan A B).length

section
variable {F : Prop} {A B : FedId} {limit : Int} {s : Net}

theorem act_fed (i : FedId) (o : FedOp) (k : FedId) :
    ((s.act limit i o).1.fed k) = if k = i then ((s.fed i).step limit o).1 else s.fed k := rfl

theorem act_chan (i : FedId) (o : FedOp) (a b : FedId) :
    ((s.act limit i o).1.chan a b) = if a = i then s.chan a b ++ sentTo (s.fed i) ((s.fed i).step limit o).1 b else s.chan a b := rfl

theorem inv_act (h : Pair F A B s) {i : FedId} (hi : i ≠ parentBroker) {o : FedOp} (ho : o.sane i) :
    ∀ k, k ≠ parentBroker → Inv ((s.act limit i o).1.fed k) ∧ ((s.act limit i o).1.fed k).tc.self = k := by
  intro k hk
  rw [act_fed]
  split
  · rename_i e
    subst e
    have hk' := h.inv k hk
    have := step_ok limit (s.fed k) o hk'.1 (by rw [hk'.2]; exact ho)
    exact ⟨this.inv, this.self.trans hk'.2⟩
  · exact h.inv k hk

theorem sent_cmd {old new : Fed} {j : FedId} {x : Item} (h : x ∈ sentTo old new j) : ∃ m, x = .cmd m := by
  unfold sentTo at h
  obtain ⟨m, _, rfl⟩ := List.mem_map.mp h
  exact ⟨m, rfl⟩

theorem sent_mem {old new : Fed} {j : FedId} {m : Msg} {l : List Packet} (hl : new.tc.out = old.tc.out ++ l)
    (h : .cmd m ∈ sentTo old new j) : (∃ p ∈ l, m ∈ p.msgs) ∧ m.dest = j := by
  unfold sentTo at h
  obtain ⟨x, hx, e⟩ := List.mem_map.mp h
  cases e
  obtain ⟨h1, h2⟩ := List.mem_filter.mp hx
  rw [hl, List.drop_left] at h1
  obtain ⟨p, hp, hm⟩ := List.mem_flatMap.mp h1
  exact ⟨⟨p, hp, by rw [← parts_eq]; exact hm⟩, by simpa using h2⟩

theorem fit_act (h : Pair F A B s) {i : FedId} {o : FedOp} :
    ∀ a b m, a ≠ parentBroker → .cmd m ∈ (s.act limit i o).1.chan a b → Fit a m ∧ m.dest = b := by
  intro a b m ha hm
  rw [act_chan] at hm
  split at hm
  · rename_i e
    subst e
    rcases List.mem_append.mp hm with hm | hm
    · exact h.fit _ _ _ ha hm
    · obtain ⟨l, h1, h2⟩ := (Fed.sg_step limit (s.fed a) o).out
      obtain ⟨⟨p, hp, hx⟩, hd⟩ := sent_mem h1 hm
      have := h2 p hp m hx
      rw [(h.inv a ha).2] at this
      exact ⟨this, hd⟩
  · exact h.fit _ _ _ ha hm

/-- a step of a federate other than the two -/
theorem pair_other (h : Pair F A B s) {i : FedId} (hi : i ≠ parentBroker) (hiA : i ≠ A) (hiB : i ≠ B) {o : FedOp}
    (ho : o.sane i) : Pair F A B (s.act limit i o).1 := by
  have hA : (s.act limit i o).1.fed A = s.fed A := by rw [act_fed, if_neg (Ne.symm hiA)]
  have hB : (s.act limit i o).1.fed B = s.fed B := by rw [act_fed, if_neg (Ne.symm hiB)]
  have hC : (s.act limit i o).1.chan A B = s.chan A B := by rw [act_chan, if_neg (Ne.symm hiA)]
  have hb : ∀ X k, Bound F A B s X k → Bound F A B (s.act limit i o).1 X k := by
    intro X k b
    exact ⟨b.pos, by rw [hB]; exact b.table, by rw [hC]; exact b.way⟩
  refine ⟨inv_act h hi ho, by rw [hA]; exact h.ok, fit_act h, ?_, ?_⟩
  · intro k t b hk
    rw [hC] at hk
    exact hb _ _ (h.flight k t b hk)
  · rw [hA, hC]
    exact fun a b => hb _ _ (h.floor a b)

/-- a step of the receiver -/
theorem pair_B (h : Pair F A B s) (hAB : A ≠ B) (hB0 : B ≠ parentBroker) {o : FedOp} (ho : o.sane B)
    (hk1 : ∀ (k : Nat) (t : Time) (b : Bool), (s.chan A B)[k]? = some (.data t b) → opOk (Speaks F A t) o)
    (hk2 : (s.fed A).live → Pol F (s.fed A) → opOk (Speaks F A (s.fed A).floor) o) :
    Pair F A B (s.act limit B o).1 := by
  have hA : (s.act limit B o).1.fed A = s.fed A := by rw [act_fed, if_neg hAB]
  have hC : (s.act limit B o).1.chan A B = s.chan A B := by rw [act_chan, if_neg hAB]
  have hb : ∀ X k, opOk (Speaks F A X) o → Bound F A B s X k → Bound F A B (s.act limit B o).1 X k := by
    intro X k hx b
    refine ⟨b.pos, ?_, by rw [hC]; exact b.way⟩
    rw [act_fed, if_pos rfl]
    have hself := (h.inv B hB0).2
    exact table_step (h.inv B hB0).1 (by rw [hself]; exact hAB) o (by rw [hself]; exact ho) hx b.table
  refine ⟨inv_act h hB0 ho, by rw [hA]; exact h.ok, fit_act h, ?_, ?_⟩
  · intro k t b hk
    rw [hC] at hk
    exact hb _ _ (hk1 k t b hk) (h.flight k t b hk)
  · rw [hA, hC]
    exact fun a b => hb _ _ (hk2 a b) (h.floor a b)

/-- a step of the sender -/
theorem pair_A (h : Pair F A B s) (hAB : A ≠ B) (hA0 : A ≠ parentBroker) {o : FedOp} (ho : o.sane A)
    (hc : calm F (s.fed A) o) :
    Pair F A B (s.act limit A o).1 ∧
    (((s.act limit A o).1.fed A).live → Pol F ((s.act limit A o).1.fed A) →
      (s.fed A).live ∧ Pol F (s.fed A) ∧ (s.fed A).floor ≤ ((s.act limit A o).1.fed A).floor) := by
  have hA : (s.act limit A o).1.fed A = ((s.fed A).step limit o).1 := by rw [act_fed, if_pos rfl]
  have hB : (s.act limit A o).1.fed B = s.fed B := by rw [act_fed, if_neg (Ne.symm hAB)]
  have hC : (s.act limit A o).1.chan A B = s.chan A B ++ sentTo (s.fed A) ((s.fed A).step limit o).1 B := by
    rw [act_chan, if_pos rfl]
  have hself := (h.inv A hA0).2
  have hgo := go_step (F := F) limit (s.fed A) o (by rw [hself]; exact ho) hc
  refine ⟨⟨inv_act h hA0 ho, ?_, fit_act h, ?_, ?_⟩, ?_⟩
  · rw [hA]
    exact fun a b => (hgo h.ok a b).good
  · intro k t b hk
    rw [hC] at hk
    by_cases hlt : k < (s.chan A B).length
    · rw [List.getElem?_append_left hlt] at hk
      have hb := h.flight k t b hk
      refine ⟨hb.pos, by rw [hB]; exact hb.table, ?_⟩
      intro n m hn hm
      rw [hC, List.getElem?_append_left (by omega)] at hm
      exact hb.way n m hn hm
    · rw [List.getElem?_append_right (by omega)] at hk
      obtain ⟨m, hm⟩ := sent_cmd (List.mem_of_getElem? hk)
      cases hm
  · rw [hA]
    intro hl hp
    have ha := hgo h.ok hl hp
    have hb := h.floor ha.live ha.pol
    refine ⟨ha.good.floor, by rw [hB]; exact hb.table.mono ha.floor, ?_⟩
    intro n m _ hm
    rw [hC] at hm
    by_cases hlt : n < (s.chan A B).length
    · rw [List.getElem?_append_left hlt] at hm
      exact (hb.way n m hlt hm).mono ha.floor
    · rw [List.getElem?_append_right (by omega)] at hm
      obtain ⟨l, h1, h2⟩ := ha.out
      obtain ⟨⟨p, hp, hx⟩, _⟩ := sent_mem h1 (List.mem_of_getElem? hm)
      exact h2 p hp m hx
  · rw [hA]
    intro hl hp
    have ha := hgo h.ok hl hp
    exact ⟨ha.live, ha.pol, ha.floor⟩

theorem take_chan (i j a b : FedId) : (s.take i j).chan a b = if a = i ∧ b = j then (s.chan a b).tail else s.chan a b := rfl

theorem pair_take (h : Pair F A B s) (i j : FedId) : Pair F A B (s.take i j) := by
  have hb : ∀ X k, Bound F A B s X k → (s.take i j).chan A B = s.chan A B → Bound F A B (s.take i j) X k := by
    intro X k b e
    exact ⟨b.pos, b.table, by rw [e]; exact b.way⟩
  have hb' : ∀ X k, Bound F A B s X (k + 1) → (s.take i j).chan A B = (s.chan A B).tail → Bound F A B (s.take i j) X k := by
    intro X k b e
    refine ⟨b.pos, b.table, ?_⟩
    intro n m hn hm
    rw [e, List.getElem?_tail] at hm
    exact b.way (n + 1) m (by omega) hm
  refine ⟨h.inv, h.ok, ?_, ?_, ?_⟩
  · intro a b m ha hm
    rw [take_chan] at hm
    split at hm
    · exact h.fit a b m ha (List.mem_of_mem_tail hm)
    · exact h.fit a b m ha hm
  · intro k t b hk
    rw [take_chan] at hk
    split at hk
    · rename_i e
      rw [List.getElem?_tail] at hk
      exact hb' _ _ (h.flight _ t b hk) (by rw [take_chan, if_pos e])
    · rename_i e
      exact hb _ _ (h.flight _ t b hk) (by rw [take_chan, if_neg e])
  · intro hl hp
    have hf := h.floor hl hp
    by_cases e : A = i ∧ B = j
    · have e' : (s.take i j).chan A B = (s.chan A B).tail := by rw [take_chan, if_pos e]
      rw [e']
      refine ⟨hf.pos, hf.table, ?_⟩
      intro n m hn hm
      rw [e', List.getElem?_tail] at hm
      have := List.length_tail (l := s.chan A B)
      exact hf.way (n + 1) m (by omega) hm
    · have e' : (s.take i j).chan A B = s.chan A B := by rw [take_chan, if_neg e]
      rw [e']
      exact hb _ _ hf e'

theorem speaks_silent {X : Time} {m : Msg} (h : word m = .silent) : Speaks F A X m := fun _ =>
  ⟨fun e => (by have h' := h; unfold word at h'; rw [e] at h'; cases h'), within_other (.inl h)⟩

theorem speaks_other {X : Time} {m : Msg} (h : m.source ≠ A) : Speaks F A X m := fun e => absurd e h

/-- a command from another federate's channel -/
theorem speaks_fit {X : Time} {i : FedId} {m : Msg} (h : Fit i m) (hi : i ≠ A) : Speaks F A X m := by
  rcases h.source with e | e | e
  · exact speaks_other (by rw [e]; exact hi)
  · exact speaks_silent (by unfold word; rw [e])
  · exact speaks_silent (by unfold word; rw [e])

/-- The command that reaches a federate by the move. -/
def arriving (s : Net) : Move → Option (FedId × Msg)
  | .core i cmd => some (i, cmd)
  | .deliver i j _ => match s.chan i j with
    | .cmd m :: _ => some (j, m)
    | _ => none
  | _ => none

/-- times that bound what the sender may still do: the stamps of its data on the way, and its floor -/
def Ahead (F : Prop) (A B : FedId) (s : Net) (X : Time) : Prop :=
  (∃ b, Item.data X b ∈ s.chan A B) ∨ ((s.fed A).live ∧ Pol F (s.fed A) ∧ X = (s.fed A).floor)

/-- the facts about a move that matter for the pair -/
structure MoveOk (F : Prop) (A B : FedId) (limit : Int) (s : Net) (m : Move) : Prop where
  pair : Pair F A B (s.step limit m).1
  /-- whatever is ahead after the move was ahead before it, or lies after something that was -/
  ahead : ∀ X, Ahead F A B (s.step limit m).1 X → ∃ Y, Y ≤ X ∧ Ahead F A B s Y
  /-- what a grant to `B` rests on -/
  grant : ∀ T, (s.step limit m).2 = some (B, T) → ∀ X, Ahead F A B (s.step limit m).1 X →
    ∃ o : FedOp, o.sane B ∧ returned ((s.fed B).step limit o) = some T ∧
    (∀ cmd, o = .msg cmd → cmd.action ≠ .forceTimeGrant ∧ arriving s m = some (B, cmd)) ∧
    opOk (Speaks F A X) o ∧ Table F A X (s.fed B) ∧ 0 ≤ X

theorem ahead_pos (h : Pair F A B s) {X : Time} (ha : Ahead F A B s X) : 0 ≤ X ∧ Table F A X (s.fed B) := by
  rcases ha with ⟨b, hm⟩ | ⟨h1, h2, rfl⟩
  · obtain ⟨k, hk⟩ := List.getElem?_of_mem hm
    have := h.flight k X b hk
    exact ⟨this.pos, this.table⟩
  · have := h.floor h1 h2
    exact ⟨this.pos, this.table⟩

theorem ahead_act_other {i : FedId} {o : FedOp} (hi : i ≠ A) {X : Time} (h : Ahead F A B (s.act limit i o).1 X) :
    Ahead F A B s X := by
  have hA : (s.act limit i o).1.fed A = s.fed A := by rw [act_fed, if_neg (Ne.symm hi)]
  have hC : (s.act limit i o).1.chan A B = s.chan A B := by rw [act_chan, if_neg (Ne.symm hi)]
  unfold Ahead at h
  rw [hA, hC] at h
  exact h

theorem ahead_take {i j : FedId} {X : Time} (h : Ahead F A B (s.take i j) X) : Ahead F A B s X := by
  rcases h with ⟨b, hm⟩ | h
  · left
    refine ⟨b, ?_⟩
    rw [take_chan] at hm
    split at hm
    · exact List.mem_of_mem_tail hm
    · exact hm
  · exact .inr h

/-- one move in which federate `i` takes a step from a state `s0` that differs from `s` at most in a delivered item -/
theorem move_act {s s0 : Net} {m : Move} (h0 : Pair F A B s0) (hfed : s0.fed = s.fed)
    (hah : ∀ X, Ahead F A B s0 X → Ahead F A B s X)
    (hAB : A ≠ B) {i : FedId} (hi : i ≠ parentBroker) {o : FedOp} (ho : o.sane i) (hst : s.step limit m = s0.act limit i o)
    (hcA : i = A → calm F (s.fed A) o)
    (hcB : ∀ cmd, o = .msg cmd → i = B → cmd.action ≠ .forceTimeGrant ∧ arriving s m = some (B, cmd))
    (hk : i = B → ∀ X, Ahead F A B s0 X → opOk (Speaks F A X) o) : MoveOk F A B limit s m := by
  by_cases hiA : i = A
  · subst hiA
    have hp := pair_A (limit := limit) h0 hAB hi ho (by rw [hfed]; exact hcA rfl)
    refine ⟨by rw [hst]; exact hp.1, ?_, ?_⟩
    · rw [hst]
      intro X hX
      rcases hX with ⟨b, hm⟩ | ⟨h1, h2, rfl⟩
      · refine ⟨X, Int.le_refl _, hah _ (.inl ⟨b, ?_⟩)⟩
        rw [act_chan, if_pos rfl] at hm
        rcases List.mem_append.mp hm with hm | hm
        · exact hm
        · obtain ⟨_, e⟩ := sent_cmd hm
          cases e
      · obtain ⟨a, b, c⟩ := hp.2 h1 h2
        exact ⟨_, c, hah _ (.inr ⟨a, b, rfl⟩)⟩
    · intro T hT
      rw [hst] at hT
      unfold Net.act at hT
      dsimp only at hT
      cases hr : returned ((s0.fed i).step limit o) with
      | none => rw [hr] at hT; cases hT
      | some t => rw [hr] at hT; injection hT with e; exact absurd (congrArg Prod.fst e) hAB
  · by_cases hiB : i = B
    · subst hiB
      have hp := pair_B (limit := limit) h0 hAB hi ho (fun k t b hk' => hk rfl t (.inl ⟨b, List.mem_of_getElem? hk'⟩))
        (fun a b => hk rfl _ (.inr ⟨a, b, rfl⟩))
      refine ⟨by rw [hst]; exact hp, ?_, ?_⟩
      · rw [hst]
        exact fun X hX => ⟨X, Int.le_refl _, hah X (ahead_act_other hiA hX)⟩
      · intro T hT X hX
        rw [hst] at hT hX
        have hX0 := ahead_act_other hiA hX
        obtain ⟨hpos, htab⟩ := ahead_pos h0 hX0
        refine ⟨o, ho, ?_, fun cmd e => hcB cmd e rfl, hk rfl X hX0, by rw [hfed] at htab; exact htab, hpos⟩
        unfold Net.act at hT
        dsimp only at hT
        rw [hfed] at hT
        cases hr : returned ((s.fed i).step limit o) with
        | none => rw [hr] at hT; cases hT
        | some t => rw [hr] at hT; injection hT with e; exact congrArg some (congrArg Prod.snd e)
    · refine ⟨by rw [hst]; exact pair_other h0 hi hiA hiB ho, ?_, ?_⟩
      · rw [hst]
        exact fun X hX => ⟨X, Int.le_refl _, hah X (ahead_act_other hiA hX)⟩
      · intro T hT
        rw [hst] at hT
        unfold Net.act at hT
        dsimp only at hT
        cases hr : returned ((s0.fed i).step limit o) with
        | none => rw [hr] at hT; cases hT
        | some t => rw [hr] at hT; injection hT with e; exact absurd (congrArg Prod.fst e) hiB

theorem move_same {s : Net} {m : Move} (h : Pair F A B s) (hs : s.step limit m = (s, none)) : MoveOk F A B limit s m := by
  refine ⟨by rw [hs]; exact h, ?_, ?_⟩
  · rw [hs]; exact fun X hX => ⟨X, Int.le_refl _, hX⟩
  · rw [hs]; intro T hT; cases hT

theorem calm_weaken {G H : Prop} {f : Fed} {o : FedOp} (h : calm G f o) (hGH : H → G) : calm H f o := by
  cases o <;> first | exact h | exact fun x => h (hGH x)

theorem pol_of_binding {f : Fed} (hi : Inv f) (h : Binding F f) : Pol F f :=
  fun e => ⟨(h e).1, (h e).2, hi.good.delta, hi.good.offset⟩

/-- data put on the way by somebody in control -/
theorem move_data {s s' : Net} {m : Move} (h : Pair F A B s) (hs : s.step limit m = (s', none)) (hfed : s'.fed = s.fed)
    {t : Time} {v : Bool} (hch : ∀ a b, s'.chan a b = s.chan a b ∨ s'.chan a b = s.chan a b ++ [.data t v])
    (hAB : s'.chan A B = s.chan A B ∨ (s'.chan A B = s.chan A B ++ [.data t v] ∧ (s.fed A).live ∧ Pol F (s.fed A) ∧ (s.fed A).floor ≤ t)) :
    MoveOk F A B limit s m := by
  have hfit : ∀ i j m, i ≠ parentBroker → .cmd m ∈ s'.chan i j → Fit i m ∧ m.dest = j := by
    intro a b m ha hm
    rcases hch a b with hC | hC
    · rw [hC] at hm; exact h.fit a b m ha hm
    · rw [hC] at hm
      rcases List.mem_append.mp hm with hm | hm
      · exact h.fit a b m ha hm
      · simp at hm
  have hinv : ∀ i, i ≠ parentBroker → Inv (s'.fed i) ∧ (s'.fed i).tc.self = i := by rw [hfed]; exact h.inv
  refine ⟨?_, ?_, by rw [hs]; intro T hT; cases hT⟩
  · rw [hs]
    rcases hAB with hC | ⟨hC, hl, hp, hle⟩
    · refine ⟨hinv, by rw [hfed]; exact h.ok, hfit, ?_, ?_⟩
      · intro k u b hk
        rw [hC] at hk
        have hb := h.flight k u b hk
        exact ⟨hb.pos, by rw [hfed]; exact hb.table, by rw [hC]; exact hb.way⟩
      · rw [hfed, hC]
        intro h1 h2
        have hb := h.floor h1 h2
        exact ⟨hb.pos, by rw [hfed]; exact hb.table, by rw [hC]; exact hb.way⟩
    · have hf := h.floor hl hp
      refine ⟨hinv, by rw [hfed]; exact h.ok, hfit, ?_, ?_⟩
      · intro k u b hk
        rw [hC] at hk
        by_cases hlt : k < (s.chan A B).length
        · rw [List.getElem?_append_left hlt] at hk
          have hb := h.flight k u b hk
          refine ⟨hb.pos, by rw [hfed]; exact hb.table, ?_⟩
          intro n m hn hm
          rw [hC, List.getElem?_append_left (by omega)] at hm
          exact hb.way n m hn hm
        · have hk' := hk
          rw [List.getElem?_append_right (by omega)] at hk'
          have hke : k = (s.chan A B).length := by
            have := (List.getElem?_eq_some_iff.mp hk').1
            simp at this
            omega
          subst hke
          simp at hk'
          obtain ⟨rfl, rfl⟩ := hk'
          refine ⟨by have := hf.pos; omega, by rw [hfed]; exact hf.table.mono hle, ?_⟩
          intro n m hn hm
          rw [hC, List.getElem?_append_left hn] at hm
          exact (hf.way n m hn hm).mono hle
      · intro _ _
        rw [hfed]
        refine ⟨hf.pos, by rw [hfed]; exact hf.table, ?_⟩
        intro n m _ hm
        rw [hC] at hm
        by_cases hlt : n < (s.chan A B).length
        · rw [List.getElem?_append_left hlt] at hm
          exact hf.way n m hlt hm
        · rw [List.getElem?_append_right (by omega)] at hm
          have := List.mem_of_getElem? hm
          simp at this
  · rw [hs]
    intro X hX
    unfold Ahead at hX
    rw [hfed] at hX
    rcases hX with ⟨b, hm⟩ | hX
    · rcases hAB with hC | ⟨hC, hl, hp, hle⟩
      · dsimp only at hm; rw [hC] at hm; exact ⟨X, Int.le_refl _, .inl ⟨b, hm⟩⟩
      · dsimp only at hm
        rw [hC] at hm
        rcases List.mem_append.mp hm with hm | hm
        · exact ⟨X, Int.le_refl _, .inl ⟨b, hm⟩⟩
        · simp at hm
          exact ⟨_, by rw [hm.1]; exact hle, .inr ⟨hl, hp, rfl⟩⟩
    · exact ⟨X, Int.le_refl _, .inr hX⟩

theorem move_ok {s : Net} (h : Pair F A B s) (hAB : A ≠ B) (hA : FedId.isFederate A = true) (m : Move)
    (hf : Fair F A s m) (hb : Binding F (s.fed A)) : MoveOk F A B limit s m := by
  have hA0 : A ≠ parentBroker := by intro e; rw [e] at hA; revert hA; decide
  have hAb : FedId.isBroker A = false := by
    unfold FedId.isFederate at hA
    unfold FedId.isBroker
    simp only [Bool.and_eq_true, decide_eq_true_eq] at hA
    simp only [Bool.or_eq_false_iff, decide_eq_false_iff_not, beq_eq_false_iff_ne]
    have : fedShift = 131072 := rfl
    exact ⟨by omega, by omega⟩
  cases m with
  | user i o =>
    obtain ⟨hi, hu, ho, hc⟩ := hf
    have hnm : ∀ cmd, o ≠ .msg cmd := by intro cmd e; rw [e] at hu; cases hu
    refine move_act (s0 := s) (i := i) (o := o) h rfl (fun _ => id) hAB hi ho rfl (fun e => ?_) (fun cmd e => absurd e (hnm cmd)) (fun _ X _ => ?_)
    · rw [← e]; exact calm_weaken hc (fun x => ⟨e, x⟩)
    · cases o <;> first | trivial | cases hu
  | core i cmd =>
    obtain ⟨hi, ho, hc, hw⟩ := hf
    refine move_act (s0 := s) (i := i) (o := .msg cmd) h rfl (fun _ => id) hAB hi ho rfl (fun e => hc) ?_ (fun e X hX => ?_)
    · intro c e1 e2
      cases e1
      exact ⟨hc.1, by rw [← e2]; rfl⟩
    · show Speaks F A X cmd
      rcases hw with hw | hw | hw | hw | hw
      · exact speaks_silent hw
      · exact speaks_other (by rw [hw, e]; exact Ne.symm hAB)
      · exact speaks_other (by rw [hw]; exact Ne.symm hA0)
      · exact speaks_other (by intro e'; rw [e', hAb] at hw; cases hw)
      · by_cases hs : cmd.source = A
        · rw [hs, e] at hw
          rcases hX with ⟨b, hm⟩ | ⟨hl, _⟩
          · exact absurd hm (hw.2 _ _)
          · exact absurd hl hw.1
        · exact speaks_other hs
  | deliver i j noticed =>
    obtain ⟨hi, hj, ht⟩ := hf
    cases hq : s.chan i j with
    | nil => exact move_same h (by simp only [Net.step, hq])
    | cons x rest =>
      have hx : x.time ≤ maxVal := ht x (by rw [hq]; rfl)
      cases x with
      | cmd m =>
        have hfit := h.fit i j m hi (by rw [hq]; simp)
        refine move_act (s0 := s.take i j) (i := j) (o := .msg m) (pair_take h i j) rfl (fun _ => ahead_take) hAB hj ?_ ?_ (fun _ => ?_) ?_ (fun e X hX => ?_)
        · refine ⟨hx, fun hbad => ?_⟩
          have := hfit.1.own hbad.1
          rw [hbad.2.2] at this
          cases this
        · simp only [Net.step, hq]
        · exact ⟨hfit.1.force, fun hj => hfit.1.init hj.1⟩
        · intro c e1 e2
          cases e1
          refine ⟨hfit.1.force, ?_⟩
          subst e2
          simp only [arriving, hq]
        · show Speaks F A X m
          subst e
          by_cases hiA : i = A
          · subst hiA
            intro _
            refine ⟨fun e => hj (hfit.2.symm.trans (hfit.1.err e)), ?_⟩
            rcases hX with ⟨b, hm⟩ | ⟨h1, h2, rfl⟩
            · obtain ⟨k, hk⟩ := List.getElem?_of_mem hm
              rw [take_chan, if_pos ⟨rfl, rfl⟩, List.getElem?_tail] at hk
              exact (h.flight (k + 1) X b hk).way 0 m (by omega) (by rw [hq]; rfl)
            · exact (h.floor h1 h2).way 0 m (by rw [hq]; simp) (by rw [hq]; rfl)
          · exact speaks_fit hfit.1 hiA
      | data t isM =>
        cases noticed with
        | false =>
          have hs : s.step limit (.deliver i j false) = (s.take i j, none) := by simp only [Net.step, hq, Bool.false_eq_true, if_false]
          refine ⟨by rw [hs]; exact pair_take h i j, ?_, ?_⟩
          · rw [hs]; exact fun X hX => ⟨X, Int.le_refl _, ahead_take hX⟩
          · rw [hs]; intro T hT; cases hT
        | true =>
          refine move_act (s0 := s.take i j) (i := j) (o := if isM then .message { action := .sendMessage, source := i, dest := j, actionTime := t }
              else .value { action := .pub, source := i, dest := j, actionTime := t }) (pair_take h i j) rfl (fun _ => ahead_take) hAB hj ?_ ?_ (fun _ => ?_) ?_ (fun e X hX => ?_)
          · cases isM
            · exact ⟨rfl, hx⟩
            · exact ⟨rfl, hx⟩
          · simp only [Net.step, hq, if_true]
          · cases isM <;> trivial
          · intro c e1; cases isM <;> cases e1
          · cases isM
            · exact speaks_silent rfl
            · exact speaks_silent rfl
  | send i j t isM =>
    cases hc : inControl (s.fed i) with
    | false => exact move_same h (by simp only [Net.step, hc, Bool.false_eq_true, if_false])
    | true =>
      have hfl : i = A → (s.fed A).live ∧ Pol F (s.fed A) ∧ (s.fed A).floor ≤ max t (stampOf (s.fed i)) := by
        intro e
        subst e
        unfold inControl at hc
        simp only [Bool.and_eq_true, decide_eq_true_eq, Bool.not_eq_true'] at hc
        refine ⟨⟨hc.2, .inr (.inr hc.1.1)⟩, pol_of_binding (h.inv i hA0).1 hb, ?_⟩
        unfold Fed.floor stampOf
        rw [if_pos hc.1.1, if_pos hc.1.2]
        omega
      refine move_data (s' := (s.step limit (.send i j t isM)).1) (t := max t (stampOf (s.fed i))) (v := isM) h ?_ ?_ ?_ ?_
      · simp only [Net.step, hc, if_true]
      · simp only [Net.step, hc, if_true]
      · intro a b
        simp only [Net.step, hc, if_true]
        split
        · exact .inr rfl
        · exact .inl rfl
      · simp only [Net.step, hc, if_true]
        split
        · rename_i e; exact .inr ⟨rfl, hfl e.1.symm⟩
        · exact .inl rfl

end

/-! ### The theorems -/

theorem pair_start (F : Prop) (A B : FedId) (ok ng gt : FedId → Bool) (hA : FedId.isFederate A = true) :
    Pair F A B (Net.start ok ng gt) := by
  have hA0 : A ≠ parentBroker := by intro e; rw [e] at hA; revert hA; decide
  refine ⟨fun i hi => ⟨initial_inv i _ _ _ hi, rfl⟩, ?_, fun i j m _ hm => (nomatch hm), fun k t b hk => (by simp [Net.start] at hk), ?_⟩
  · intro _ _
    refine ⟨rfl, ⟨by simp [Net.start, Fed.initial, Fed.floor], fun _ => by simp [Net.start, Fed.initial, Fed.floor], by simp [Net.start, Fed.initial]⟩, fun _ => rfl, ?_, ?_, ?_⟩
    · intro h; cases h
    · simp [Net.start, Fed.initial, Fed.floor]
    · intro h; cases h
  · intro _ _
    refine ⟨by simp [Net.start, Fed.initial, Fed.floor], fun _ d hd => (nomatch hd), fun n m hn => (by simp [Net.start] at hn)⟩

theorem run_append (limit : Int) (s : Net) (a b : List Move) : s.run limit (a ++ b) = (s.run limit a).run limit b := by
  unfold Net.run; rw [List.foldl_append]

theorem legal_append {F : Prop} {A : FedId} {limit : Int} {s : Net} {a b : List Move} (h : Legal F A limit s (a ++ b)) :
    Legal F A limit s a ∧ Legal F A limit (s.run limit a) b := by
  induction a generalizing s with
  | nil => exact ⟨trivial, h⟩
  | cons m ms ih =>
    obtain ⟨h1, h2⟩ := ih h.2.2
    exact ⟨⟨h.1, h.2.1, h1⟩, h2⟩

theorem pair_run {F : Prop} {A B : FedId} {limit : Int} {s : Net} (hAB : A ≠ B) (hA : FedId.isFederate A = true) {ms : List Move}
    (h : Legal F A limit s ms) (hp : Pair F A B s) : Pair F A B (s.run limit ms) := by
  induction ms generalizing s with
  | nil => exact hp
  | cons m ms ih => exact ih h.2.2 (move_ok hp hAB hA m h.1 h.2.1).pair

theorem ahead_run {F : Prop} {A B : FedId} {limit : Int} {s : Net} (hAB : A ≠ B) (hA : FedId.isFederate A = true) {ms : List Move}
    (h : Legal F A limit s ms) (hp : Pair F A B s) (X : Time) (hX : Ahead F A B (s.run limit ms) X) :
    ∃ Y, Y ≤ X ∧ Ahead F A B s Y := by
  induction ms generalizing s with
  | nil => exact ⟨X, Int.le_refl _, hX⟩
  | cons m ms ih =>
    have hm := move_ok (limit := limit) hp hAB hA m h.1 h.2.1
    obtain ⟨Y, h1, h2⟩ := ih h.2.2 hm.pair hX
    obtain ⟨Z, h3, h4⟩ := hm.ahead Y h2
    exact ⟨Z, by omega, h4⟩

/-- the federate waits for `A` in the restrictive sense: its own policy is restrictive, or it uses the global clock -/
def strict (f : Fed) : Bool := f.tc.info.restrictive || f.tc.globalTime

theorem far_mono {info : TCOptions} {X Y : Time} (h : Y ≤ X) (hf : far info X) : far info Y := by
  unfold far at *; omega

theorem causal {F : Prop} (A B : FedId) (hA : FedId.isFederate A = true) (hB : B ≠ parentBroker) (hAB : A ≠ B)
    (limit : Int) (ok ng gt : FedId → Bool) (pre : List Move) (m : Move) (post : List Move)
    (hl : Legal F A limit (Net.start ok ng gt) (pre ++ m :: post))
    (hs : (((Net.start ok ng gt).run limit pre).fed B).state = .executing)
    (hdep : (((Net.start ok ng gt).run limit pre).fed B).tc.deps.isDependency A = true)
    (hrw : ∀ cmd, arriving ((Net.start ok ng gt).run limit pre) m = some (B, cmd) → rewires A cmd = false)
    (hkind : strict (((Net.start ok ng gt).run limit pre).fed B) = true ∨ F)
    (T : Time) (hT : (((Net.start ok ng gt).run limit pre).step limit m).2 = some (B, T))
    (t : Time) (b : Bool) (hd : .data t b ∈ ((Net.start ok ng gt).run limit (pre ++ m :: post)).chan A B)
    (hfar : far (((Net.start ok ng gt).run limit pre).fed B).tc.info
      (if strict (((Net.start ok ng gt).run limit pre).fed B) then t else max t (((Net.start ok ng gt).run limit pre).fed B).tc.granted)) :
    T ≤ (((Net.start ok ng gt).run limit pre).fed B).tc.info.inputDelay +
      (if strict (((Net.start ok ng gt).run limit pre).fed B) then t else max t (((Net.start ok ng gt).run limit pre).fed B).tc.granted) := by
  obtain ⟨hl1, hl2⟩ := legal_append hl
  have hp := pair_run hAB hA hl1 (pair_start F A B ok ng gt hA)
  rw [run_append] at hd
  generalize (Net.start ok ng gt).run limit pre = s at *
  have hm := move_ok (limit := limit) hp hAB hA m hl2.1 hl2.2.1
  obtain ⟨X, hXt, hX⟩ := ahead_run hAB hA hl2.2.2 hm.pair t (.inl ⟨b, hd⟩)
  obtain ⟨o, ho, hret, hcmd, hk, htab, hpos⟩ := hm.grant T hT X hX
  have hself := (hp.inv B hB).2
  have hle : (if strict (s.fed B) then X else max X (s.fed B).tc.granted) ≤ (if strict (s.fed B) then t else max t (s.fed B).tc.granted) := by
    split <;> omega
  have hv : A ≠ invalidFed := by intro e; rw [e] at hA; revert hA; decide
  have hhas : Has A (fun _ => True) (s.fed B).tc.deps := by
    obtain ⟨d, rest, h1, h2, h3⟩ := isDependency_split hdep
    have := before_append_fromLB (s.fed B).tc.deps A
    exact ⟨d, by rw [← this, h1]; simp, h2, h3, trivial⟩
  have := grant_bound (limit := limit) (hp.inv B hB).1 (by rw [hself]; exact hAB) hv hpos o (by rw [hself]; exact ho) hk htab hs
    (fun cmd e => ⟨hrw cmd (hcmd cmd e).2, (hcmd cmd e).1⟩) hhas (far_mono hle hfar) hkind T hret
  have hle' : (if (s.fed B).tc.info.restrictive || (s.fed B).tc.globalTime then X else max X (s.fed B).tc.granted) ≤
      (if strict (s.fed B) then t else max t (s.fed B).tc.granted) := hle
  omega

/-- **C06 (restrictive federates).**  Let `A` keep the restrictive policy while it executes, and let `B`, executing
and restrictive, be granted `T` at a moment when `A` is one of its dependencies.  From then on, whatever anybody
does, in whatever order commands and data of different federates arrive: every value and message from `A` that is
on the way to `B` carries a time stamp `t` with `T ≤ t + inputDelay`; without an input delay nothing arrives in
the past of `B`. -/
theorem C06_restrictive (A B : FedId) (hA : FedId.isFederate A = true) (hB : B ≠ parentBroker) (hAB : A ≠ B)
    (limit : Int) (ok ng gt : FedId → Bool) (pre : List Move) (m : Move) (post : List Move)
    (hl : Legal False A limit (Net.start ok ng gt) (pre ++ m :: post)) (before after : Net)
    (hbefore : before = (Net.start ok ng gt).run limit pre) (hafter : after = (Net.start ok ng gt).run limit (pre ++ m :: post))
    (hs : (before.fed B).state = .executing) (hdep : (before.fed B).tc.deps.isDependency A = true)
    (hrw : ∀ cmd, arriving before m = some (B, cmd) → rewires A cmd = false) (hkind : strict (before.fed B) = true)
    (T : Time) (hT : (before.step limit m).2 = some (B, T))
    (t : Time) (b : Bool) (hd : .data t b ∈ after.chan A B) (hfar : far (before.fed B).tc.info t) :
    T ≤ t + (before.fed B).tc.info.inputDelay := by
  subst hbefore hafter
  have := causal A B hA hB hAB limit ok ng gt pre m post hl hs hdep hrw (.inl hkind) T hT t b hd (by rw [if_pos hkind]; exact hfar)
  rw [if_pos hkind] at this
  omega

/-- **C06 (uninterruptible sender).**  The same when `A` is uninterruptible and asks without iteration, for a
receiver with any time policy.  A receiver that is not restrictive and already holds a time is sure only up to the
later of the time stamp and the time it held before this grant, plus its input delay. -/
theorem C06_uninterruptible (A B : FedId) (hA : FedId.isFederate A = true) (hB : B ≠ parentBroker) (hAB : A ≠ B)
    (limit : Int) (ok ng gt : FedId → Bool) (pre : List Move) (m : Move) (post : List Move)
    (hl : Legal True A limit (Net.start ok ng gt) (pre ++ m :: post)) (before after : Net)
    (hbefore : before = (Net.start ok ng gt).run limit pre) (hafter : after = (Net.start ok ng gt).run limit (pre ++ m :: post))
    (hs : (before.fed B).state = .executing) (hdep : (before.fed B).tc.deps.isDependency A = true)
    (hrw : ∀ cmd, arriving before m = some (B, cmd) → rewires A cmd = false)
    (T : Time) (hT : (before.step limit m).2 = some (B, T))
    (t : Time) (b : Bool) (hd : .data t b ∈ after.chan A B)
    (hfar : far (before.fed B).tc.info (max t (before.fed B).tc.granted)) :
    T ≤ max t (before.fed B).tc.granted + (before.fed B).tc.info.inputDelay ∧
    (strict (before.fed B) = true → T ≤ t + (before.fed B).tc.info.inputDelay) := by
  subst hbefore hafter
  have hf : far (((Net.start ok ng gt).run limit pre).fed B).tc.info
      (if strict (((Net.start ok ng gt).run limit pre).fed B) then t else max t (((Net.start ok ng gt).run limit pre).fed B).tc.granted) :=
    far_mono (by split <;> omega) hfar
  have := causal (F := True) A B hA hB hAB limit ok ng gt pre m post hl hs hdep hrw (.inr trivial) T hT t b hd hf
  refine ⟨?_, fun hk => ?_⟩
  · split at this <;> omega
  · rw [if_pos hk] at this; omega

/-- In particular, with no input delay, a grant that moves the federate forward never passes the time stamp of
anything still to come from `A`. -/
theorem C06_forward (A B : FedId) (hA : FedId.isFederate A = true) (hB : B ≠ parentBroker) (hAB : A ≠ B)
    (limit : Int) (ok ng gt : FedId → Bool) (pre : List Move) (m : Move) (post : List Move)
    (hl : Legal True A limit (Net.start ok ng gt) (pre ++ m :: post)) (before after : Net)
    (hbefore : before = (Net.start ok ng gt).run limit pre) (hafter : after = (Net.start ok ng gt).run limit (pre ++ m :: post))
    (hs : (before.fed B).state = .executing) (hdep : (before.fed B).tc.deps.isDependency A = true)
    (hrw : ∀ cmd, arriving before m = some (B, cmd) → rewires A cmd = false)
    (T : Time) (hT : (before.step limit m).2 = some (B, T))
    (t : Time) (b : Bool) (hd : .data t b ∈ after.chan A B)
    (hfar : far (before.fed B).tc.info (max t (before.fed B).tc.granted))
    (h0 : (before.fed B).tc.info.inputDelay = 0) (hnew : (before.fed B).tc.granted < T) : T ≤ t := by
  have := (C06_uninterruptible A B hA hB hAB limit ok ng gt pre m post hl before after hbefore hafter hs hdep hrw T hT t b hd hfar).1
  omega

/-! ### Witnesses -/

/-- a check of `Fair` and `Binding` that can be evaluated -/
def fairB (s : Net) : Move → Bool
  | .user i o => i != parentBroker && byUser o && (match o with
    | .timeRequest t it _ _ => decide (t ≤ maxVal) && decide (it = .noIterations)
    | .execRequest _ => true
    | .setFlag _ _ => decide ((s.fed i).state ≠ .executing)
    | _ => false)
  | .core i cmd => i != parentBroker && decide (cmd.actionTime ≤ maxVal) && decide (word cmd = .silent) &&
      cmd.action != .forceTimeGrant && !(cmd.interrupted || cmd.dynamicJoin)
  | .deliver i j _ => i != parentBroker && j != parentBroker && (s.chan i j).head?.all (fun x => decide (x.time ≤ maxVal))
  | .send _ _ _ _ => true

def bindingB (f : Fed) : Bool := f.state != .executing || (f.tc.info.restrictive && f.tc.info.uninterruptible)

def legalB (A : FedId) (limit : Int) : Net → List Move → Bool
  | _, [] => true
  | s, m :: ms => fairB s m && bindingB (s.fed A) && legalB A limit (s.step limit m).1 ms

theorem fair_of_fairB {F : Prop} {A : FedId} {s : Net} {m : Move} (h : fairB s m = true) : Fair F A s m := by
  cases m with
  | user i o =>
    simp only [fairB, Bool.and_eq_true, bne_iff_ne] at h
    obtain ⟨⟨h1, h2⟩, h3⟩ := h
    refine ⟨h1, h2, ?_, ?_⟩
    · cases o <;> simp at h3 <;> first | exact h3.1 | trivial
    · cases o <;> simp at h3 <;> first | exact fun _ => h3.2 | trivial | exact h3
  | core i cmd =>
    simp only [fairB, Bool.and_eq_true, bne_iff_ne, decide_eq_true_eq, Bool.not_eq_true'] at h
    obtain ⟨⟨⟨⟨h1, h2⟩, h3⟩, h4⟩, h5⟩ := h
    refine ⟨h1, ⟨h2, ?_⟩, ⟨h4, fun hj => ?_⟩, .inl h3⟩
    · rintro ⟨h, _⟩
      unfold word at h3
      rcases h with h | h <;> rw [h] at h3 <;> cases h3
    · rw [hj.2] at h5; cases h5
  | deliver i j n =>
    simp only [fairB, Bool.and_eq_true, bne_iff_ne] at h
    obtain ⟨⟨h1, h2⟩, h3⟩ := h
    refine ⟨h1, h2, ?_⟩
    intro x hx
    rw [Option.mem_def] at hx
    rw [hx] at h3
    simpa using h3
  | send => trivial

theorem legal_of_legalB {F : Prop} {A : FedId} {limit : Int} {s : Net} {ms : List Move} (h : legalB A limit s ms = true) :
    Legal F A limit s ms := by
  induction ms generalizing s with
  | nil => trivial
  | cons m ms ih =>
    simp only [legalB, Bool.and_eq_true] at h
    refine ⟨fair_of_fairB h.1.1, ?_, ih h.2⟩
    intro e
    have := h.1.2
    unfold bindingB at this
    rw [e] at this
    simp at this
    exact ⟨.inl this.1, fun _ => this.2⟩

def idA : FedId := 131072
def idB : FedId := 131073
def idC : FedId := 131074
def idD : FedId := 131075
/-- `j` receives data of `i` -/
def link (i j : FedId) : List Move :=
  [.core j { action := .addDependency, source := i, dest := j }, .core i { action := .addDependent, source := j, dest := i }]
def enter (i : FedId) : List Move := [.core i { action := .initGrant, dest := i }, .user i (.execRequest .noIterations)]
def ask (i : FedId) (t : Time) : Move := .user i (.timeRequest t .noIterations maxVal maxVal)
def pass (i j : FedId) (n : Nat) : List Move := List.replicate n (.deliver i j true)
def fresh : Net := Net.start (fun _ => true) (fun _ => false) (fun _ => false)

/-- Two restrictive federates; `A`, also uninterruptible, feeds `B`.  `B` asks for 9; `A` holds 5, asks
for 12, is granted 12 and sends data. -/
def twoPre : List Move :=
  [.user idA (.setFlag .restrictive true), .user idA (.setFlag .uninterruptible true), .user idB (.setFlag .restrictive true)] ++
  link idA idB ++ enter idA ++ enter idB ++ pass idA idB 4 ++ [ask idA 5, ask idB 9, ask idA 12,
    .send idA idB 0 true] ++ pass idA idB 2

/-- The next arrival grants 9 to `B`, while data for time 12 is on the way, and later data for 20. -/
example : FedId.isFederate idA = true ∧ idB ≠ parentBroker ∧
    Legal False idA 100 fresh (twoPre ++ .deliver idA idB true :: [ask idA 20, .send idA idB 0 false]) ∧
    Legal True idA 100 fresh (twoPre ++ .deliver idA idB true :: [ask idA 20, .send idA idB 0 false]) ∧
    ((fresh.run 100 twoPre).fed idB).state = .executing ∧ ((fresh.run 100 twoPre).fed idB).tc.deps.isDependency idA = true ∧
    strict ((fresh.run 100 twoPre).fed idB) = true ∧
    ((fresh.run 100 twoPre).step 100 (.deliver idA idB true)).2 = some (idB, 9) ∧
    Item.data 12 true ∈ (fresh.run 100 (twoPre ++ .deliver idA idB true :: [ask idA 20, .send idA idB 0 false])).chan idA idB ∧
    Item.data 20 false ∈ (fresh.run 100 (twoPre ++ .deliver idA idB true :: [ask idA 20, .send idA idB 0 false])).chan idA idB :=
  ⟨by decide, by decide, legal_of_legalB (by decide +kernel), legal_of_legalB (by decide +kernel), by decide +kernel,
    by decide +kernel, by decide +kernel, by decide +kernel, by decide +kernel, by decide +kernel⟩

/-! ### What does not hold: the default policy

With the default policy a federate may be interrupted at any time at which its own inputs arrive, but what it tells
others about this possibility (`Tdemin`) covers only its direct dependencies' own events
(src/helics/core/TimeCoordinator.cpp:864-935, src/helics/core/TimeDependencies.cpp:788-808).  Four federates in a
row are enough. -/

/-- Four federates in a row with default settings, all told to enter executing mode; all their commands delivered. -/
def rowStart : List Move :=
  link idA idB ++ link idB idC ++ link idC idD ++ enter idA ++ enter idB ++ enter idC ++ enter idD ++
  pass idA idB 4 ++ pass idB idC 4 ++ pass idC idD 4 ++ pass idA idB 4 ++ pass idB idC 4 ++ pass idC idD 4

/-- `D` asks for 5, `C` and `B` for 10, `A` for 1; everything on the way is delivered. -/
def rowAsk : List Move :=
  rowStart ++ [ask idD 5, ask idC 10, ask idB 10, ask idA 1] ++ pass idA idB 2 ++ pass idB idC 3 ++ pass idC idD 2

/-- `A`, at time 1, sends to `B`; `B`, woken at 1, sends to `C`; `C`, woken at 1, sends to `D`. -/
def rowSend : List Move :=
  [.send idA idB 1 false, ask idA 20] ++ pass idA idB 4 ++ [.send idB idC 1 false, ask idB 20] ++ pass idB idC 4 ++
  [.send idC idD 1 false]

/-- The move changes no setting. -/
def keepsSettings : Move → Bool
  | .user _ (.setFlag _ _) | .user _ (.setTime _ _) | .user _ (.setMaxIterations _) => false
  | _ => true

/-- **C06 fails for the default policy.**  In this history of four federates with default settings, in a row, without
input delays, `D` is granted 5 although nothing is on the way to anybody and its only dependency `C` still is to
be granted 1 and to send it data for time 1. -/
theorem C06_default_fails :
    (rowAsk ++ rowSend).all keepsSettings = true ∧
    ((fresh.run 100 rowAsk).chan idA idB = [] ∧ (fresh.run 100 rowAsk).chan idB idC = [] ∧ (fresh.run 100 rowAsk).chan idC idD = []) ∧
    ((fresh.run 100 rowAsk).fed idD).tc.deps.isDependency idC = true ∧
    (idD, 5) ∈ grants 100 fresh rowAsk ∧
    ((fresh.run 100 rowAsk).fed idD).tc.granted = 5 ∧ ((fresh.run 100 rowAsk).fed idD).tc.info.inputDelay = 0 ∧
    Item.data 1 false ∈ (fresh.run 100 (rowAsk ++ rowSend)).chan idC idD := by
  refine ⟨by decide +kernel, ⟨by decide +kernel, by decide +kernel, by decide +kernel⟩, by decide +kernel, by decide +kernel, by decide +kernel, by decide +kernel, by decide +kernel⟩

/-- `A`, uninterruptible, feeds `B`, which has the default policy and an input delay of 5.  `A` is granted 1 and stays
there. -/
def delayStart : List Move :=
  [.user idA (.setFlag .uninterruptible true), .user idB (.setTime .inputDelay 5)] ++ link idA idB ++ enter idA ++ enter idB ++
  pass idA idB 4 ++ [ask idA 1] ++ pass idA idB 4

/-- **The input delay is used again and again.**  `B` asks for 5, 10, 15 and 20 and is granted each although `A`
never moves on from time 1: each request lets the federate forget how far `A` had said to be
(src/helics/core/TimeDependencies.cpp:700-708).  Data `A` then sends, for time 1, arrives 14 later than the delay
allows. -/
theorem C06_delay_fails :
    grants 100 fresh (delayStart ++ [ask idB 5, ask idB 10, ask idB 15, ask idB 20]) =
      [(idA, 0), (idB, 0), (idA, 1), (idB, 5), (idB, 10), (idB, 15), (idB, 20)] ∧
    Item.data 1 false ∈ (fresh.run 100 (delayStart ++ [ask idB 5, ask idB 10, ask idB 15, ask idB 20, .send idA idB 0 false])).chan idA idB := by
  refine ⟨by decide +kernel, by decide +kernel⟩

end Causality
end Verif
