import Verif.Props.FilterSpec
/-!
# Lemmas about filters: what effects do, what a chain does to a command
-/
namespace Verif.Filt

/-! ## Effects -/

def Eff.toHanded : Eff → Option Cmd
  | .deliver c => if c.act = .send then some c else none
  | _ => none

def Eff.toWire : Eff → Option Cmd
  | .wire c => some c
  | .deliver c => if c.act = .send then none else some c
  | _ => none

def Eff.toRecv : Eff → Option (Int × Msg)
  | .give c => some (c.dst.2, c.msg)
  | _ => none

theorem effect_ff (y : Sys) (e : Eff) :
    (y.effect e).ff = y.ff ∧ (y.effect e).home = y.home ∧ (y.effect e).resolve = y.resolve := by
  cases e with
  | wire c => exact ⟨rfl, rfl, rfl⟩
  | deliver c => simp only [Sys.effect]; split <;> exact ⟨rfl, rfl, rfl⟩
  | give c => exact ⟨rfl, rfl, rfl⟩
  | block f => exact ⟨rfl, rfl, rfl⟩
  | unblock f => simp only [Sys.effect, Sys.dropBlock]; split <;> exact ⟨rfl, rfl, rfl⟩
  | blockFed f => exact ⟨rfl, rfl, rfl⟩
  | unblockFed f => exact ⟨rfl, rfl, rfl⟩
  | crash => exact ⟨rfl, rfl, rfl⟩

theorem effects_ff (y : Sys) (es : List Eff) :
    (y.effects es).ff = y.ff ∧ (y.effects es).home = y.home ∧ (y.effects es).resolve = y.resolve := by
  unfold Sys.effects
  induction es generalizing y with
  | nil => exact ⟨rfl, rfl, rfl⟩
  | cons e es ih =>
    rw [List.foldl_cons]
    obtain ⟨h1, h2, h3⟩ := ih (y.effect e)
    obtain ⟨g1, g2, g3⟩ := effect_ff y e
    exact ⟨h1.trans g1, h2.trans g2, h3.trans g3⟩

theorem effect_out (y : Sys) (e : Eff) :
    (y.effect e).handed = y.handed ++ e.toHanded.toList ∧
    (y.effect e).wire = y.wire ++ e.toWire.toList ∧
    (y.effect e).received = y.received ++ e.toRecv.toList ∧
    (y.effect e).crashed = (y.crashed || decide (e = .crash)) := by
  cases e with
  | wire c => simp [Sys.effect, Eff.toHanded, Eff.toWire, Eff.toRecv]
  | deliver c =>
    simp only [Sys.effect, Eff.toHanded, Eff.toWire, Eff.toRecv]
    split <;> simp
  | give c => simp [Sys.effect, Eff.toHanded, Eff.toWire, Eff.toRecv]
  | block f => simp [Sys.effect, Sys.addBlock, Eff.toHanded, Eff.toWire, Eff.toRecv]
  | unblock f =>
    simp only [Sys.effect, Sys.dropBlock, Eff.toHanded, Eff.toWire, Eff.toRecv]
    split <;> simp
  | blockFed f => simp [Sys.effect, Eff.toHanded, Eff.toWire, Eff.toRecv]
  | unblockFed f => simp [Sys.effect, Eff.toHanded, Eff.toWire, Eff.toRecv]
  | crash => simp [Sys.effect, Eff.toHanded, Eff.toWire, Eff.toRecv]

theorem effects_out (y : Sys) (es : List Eff) :
    (y.effects es).handed = y.handed ++ es.filterMap Eff.toHanded ∧
    (y.effects es).wire = y.wire ++ es.filterMap Eff.toWire ∧
    (y.effects es).received = y.received ++ es.filterMap Eff.toRecv ∧
    (y.effects es).crashed = (y.crashed || decide (.crash ∈ es)) := by
  unfold Sys.effects
  induction es generalizing y with
  | nil => simp
  | cons e es ih =>
    rw [List.foldl_cons]
    obtain ⟨h1, h2, h3, h4⟩ := ih (y.effect e)
    obtain ⟨g1, g2, g3, g4⟩ := effect_out y e
    refine ⟨?_, ?_, ?_, ?_⟩
    · rw [h1, g1, List.filterMap_cons, List.append_assoc]; cases e.toHanded <;> rfl
    · rw [h2, g2, List.filterMap_cons, List.append_assoc]; cases e.toWire <;> rfl
    · rw [h3, g3, List.filterMap_cons, List.append_assoc]; cases e.toRecv <;> rfl
    · rw [h4, g4]
      by_cases hc : e = .crash
      · simp [hc]
      · have : ¬ Eff.crash = e := fun h => hc h.symm
        simp [hc, this]

/-- the holds an effect changes -/
def Eff.isHold : Eff → Bool
  | .block _ | .unblock _ => true
  | _ => false

/-- the holds of federates an effect changes -/
def Eff.isHeld : Eff → Bool
  | .blockFed _ | .unblockFed _ => true
  | _ => false

structure Holds where
  blocks : List (Int × Int)
  delayed : List (Int × Int)
  timing : List (Int × Int)

def Sys.holds (y : Sys) : Holds := ⟨y.blocks, y.delayed, y.timing⟩

theorem holds_nil (y : Sys) {es : List Eff} (h : ∀ e ∈ es, e.isHold = false) :
    (y.effects es).holds = y.holds := by
  unfold Sys.effects
  induction es generalizing y with
  | nil => rfl
  | cons e es ih =>
    rw [List.foldl_cons, ih _ (fun e' h' => h e' (List.mem_cons_of_mem _ h'))]
    have := h e (List.mem_cons_self ..)
    cases e <;> simp_all [Sys.effect, Sys.holds, Eff.isHold]
    split <;> exact ⟨rfl, rfl, rfl⟩

theorem held_nil (y : Sys) {es : List Eff} (h : ∀ e ∈ es, e.isHeld = false) :
    (y.effects es).held = y.held := by
  unfold Sys.effects
  induction es generalizing y with
  | nil => rfl
  | cons e es ih =>
    rw [List.foldl_cons, ih _ (fun e' h' => h e' (List.mem_cons_of_mem _ h'))]
    have := h e (List.mem_cons_self ..)
    cases e <;> simp_all [Sys.effect, Eff.isHeld, Sys.addBlock, Sys.dropBlock]
    · split <;> rfl
    · split <;> rfl

theorem effects_append (y : Sys) (a b : List Eff) : y.effects (a ++ b) = (y.effects a).effects b := by
  unfold Sys.effects; rw [List.foldl_append]

/-! ## What a command under way will come to -/

/-- the filter a request is addressed to, as a `FInfo` -/
def Cmd.filter (c : Cmd) : FInfo := { core := c.dst.1, handle := c.dst.2 }

theorem op_of_dst (E : Env) {c : Cmd} {f : FInfo} (h : c.dst = (f.core, f.handle)) :
    E.op c.filter = E.op f := by
  unfold Env.op Cmd.filter
  rw [h]

theorem apply_of_dst (E : Env) {c : Cmd} {f : FInfo} (h : c.dst = (f.core, f.handle)) :
    E.apply c.filter = E.apply f := by
  funext m
  unfold Env.apply
  rw [op_of_dst E h]

theorem clones_of_dst (E : Env) {c : Cmd} {f : FInfo} (h : c.dst = (f.core, f.handle)) :
    E.clones c.filter = E.clones f := by
  funext m
  unfold Env.clones
  rw [op_of_dst E h]

/-- is the filter a request is addressed to a cloning one -/
def Env.toClone (E : Env) (c : Cmd) : Bool :=
  match E.home c.dst.1 c.dst.2 with
  | some hf => hf.cloning
  | none => false

/-- the messages a command under way will add to those sent on -/
def Env.pendHand (E : Env) (c : Cmd) : List (Msg × (Int × Int)) :=
  match c.act with
  | .forFilter =>
    if E.toClone c then (E.clones c.filter c.msg).map (fun m => (m, byName))
    else ((E.apply c.filter c.msg).map (fun m => (m, byName))).toList
  | .forFilterRet =>
    match E.apply c.filter c.msg, E.epts c.src.2 with
    | some m, some e => E.outcome (e.chain.drop (c.counter + 1)) m byName
    | _, _ => []
  | .result =>
    match E.epts c.dst.2 with
    | some e => E.outcome (e.chain.drop (c.counter + 1)) c.msg byName
    | none => []
  | .forDestRet =>
    match E.apply c.filter c.msg, E.epts c.src.2 with
    | some m, some e => if m.dest = c.msg.dest then E.cloneHand e m else [(m, byName)]
    | _, _ => []
  | .destResult =>
    match E.epts c.dst.2 with
    | some e => E.cloneHand e c.msg
    | none => []
  | _ => []

/-- the messages a command under way will add to those endpoints receive -/
def Env.pendRecv (E : Env) (c : Cmd) : List (Int × Msg) :=
  match c.act with
  | .forDestRet =>
    match E.apply c.filter c.msg, E.epts c.src.2 with
    | some m, some e => if m.dest = c.msg.dest then (c.src.2, m) :: E.cloneRecv e c.src.2 m else []
    | _, _ => []
  | .destResult =>
    match E.epts c.dst.2 with
    | some e => (c.dst.2, c.msg) :: E.cloneRecv e c.dst.2 c.msg
    | none => []
  | _ => []

/-- the marker a command under way belongs to -/
def Env.key (E : Env) (c : Cmd) : Option (Int × Int) :=
  match c.act with
  | .forFilterRet => (E.epts c.src.2).map (fun e => (e.fed, c.seq))
  | .result | .null => (E.epts c.dst.2).map (fun e => (e.fed, c.seq))
  | _ => none

/-- the marker of a destination filter a command under way belongs to -/
def Env.keyDest (E : Env) (c : Cmd) : Option (Int × Int) :=
  match c.act with
  | .forDestRet => (E.epts c.src.2).map (fun e => (e.fed, c.seq))
  | .destResult | .nullDest => (E.epts c.dst.2).map (fun e => (e.fed, c.seq))
  | _ => none

/-- the commands under way are as expected -/
structure Env.WireOk (E : Env) (c : Cmd) : Prop where
  /-- requests go to filters of other cores which work -/
  req : c.act.isRequest = true → c.dst.1 ≠ E.fed ∧
    ∃ hf, E.home c.dst.1 c.dst.2 = some hf ∧ hf.off = false ∧ (hf.cloning = true → ∃ op, hf.op = some op) ∧
      (c.act ≠ .forFilter → hf.cloning = false)
  /-- requests which are to come back know the endpoint, and so do answers -/
  ret : c.act = .forFilterRet → ∃ e, E.epts c.src.2 = some e ∧ e.fed = c.src.1 ∧
    c.counter + 1 < e.chain.length ∧ ∀ g ∈ e.chain.drop (c.counter + 1), g.cloning = false
  ans : c.act = .result → ∃ e, E.epts c.dst.2 = some e ∧ e.fed = c.dst.1 ∧
    c.counter + 1 < e.chain.length ∧ ∀ g ∈ e.chain.drop (c.counter + 1), g.cloning = false
  null : c.act = .null → ∃ e, E.epts c.dst.2 = some e ∧ e.fed = c.dst.1
  dret : c.act = .forDestRet → ∃ e, E.epts c.src.2 = some e ∧ e.fed = c.src.1
  dans : c.act.isDestAnswer = true → ∃ e, E.epts c.dst.2 = some e ∧ e.fed = c.dst.1
  known : c.act.isRequest = true ∨ c.act.isAnswer = true ∨ c.act.isDestAnswer = true

/-- the messages an effect leads to -/
def Env.effHand (E : Env) (es : List Eff) : List (Msg × (Int × Int)) :=
  (es.filterMap Eff.toHanded).map (fun c => (c.msg, c.dst)) ++ (es.filterMap Eff.toWire).flatMap E.pendHand

def Env.effRecv (E : Env) (es : List Eff) : List (Int × Msg) :=
  es.filterMap Eff.toRecv ++ (es.filterMap Eff.toWire).flatMap E.pendRecv

theorem effHand_append (E : Env) (a b : List Eff) : (E.effHand (a ++ b)).Perm (E.effHand a ++ E.effHand b) := by
  unfold Env.effHand
  rw [List.perm_iff_count]
  intro x
  simp only [List.filterMap_append, List.map_append, List.flatMap_append, List.count_append]
  omega

theorem effRecv_append (E : Env) (a b : List Eff) : (E.effRecv (a ++ b)).Perm (E.effRecv a ++ E.effRecv b) := by
  unfold Env.effRecv
  rw [List.perm_iff_count]
  intro x
  simp only [List.filterMap_append, List.flatMap_append, List.count_append]
  omega

end Verif.Filt
