import Verif.Model.Publication
import Verif.Model.Endpoint
import Verif.Props.Publications
import Verif.Lemmas.InputInv
/-!
# C35: connection lists stay consistent

For publications (subscribers), endpoints (destinations and sources) and inputs (sources): each connected interface is
listed once, it is listed exactly when the last call concerning it connected it, and removal leaves no copy.
-/
namespace Verif

/-- What a call means for the connection to `h`. -/
inductive Effect35 | connect | drop | none
  deriving DecidableEq

/-- Connected after the effects, given the state before. -/
def connectedAfter : Bool → List Effect35 → Bool
  | b, [] => b
  | _, .connect :: es => connectedAfter true es
  | _, .drop :: es => connectedAfter false es
  | b, .none :: es => connectedAfter b es

theorem connectedAfter_snoc (b : Bool) (es : List Effect35) (e : Effect35) :
    connectedAfter b (es ++ [e]) = connectedAfter (connectedAfter b es) [e] := by
  induction es generalizing b with
  | nil => rfl
  | cons x xs ih => cases x <;> simp [connectedAfter] <;> rw [ih]

namespace Pub

/-- What a call on a publication means for subscriber `h`. -/
def effect (h : GHandle) : Op → Effect35
  | .subscribe h' _ => if h' = h then .connect else .none
  | .unsubscribe h' => if h' = h then .drop else .none
  | .disconnect f => if h.fed = f then .drop else .none
  | _ => .none

theorem ids_step (p : Pub) (x : Op) (hn : (p.subscribers.map (·.1)).Nodup) :
    (((p.step x).1.subscribers.map (·.1)).Nodup) ∧
    ∀ h, h ∈ (p.step x).1.subscribers.map (·.1) ↔ connectedAfter (decide (h ∈ p.subscribers.map (·.1))) [effect h x] = true := by
  have filt : ∀ (c : GHandle → Bool), (p.subscribers.filter fun s => !c s.1).map (·.1) = (p.subscribers.map (·.1)).filter (fun s => !c s) := by
    intro c; rw [List.filter_map]; rfl
  cases x with
  | publish d t f =>
    have : (p.step (.publish d t f)).1.subscribers = p.subscribers := by
      simp only [step, checkSetValue]; split
      · rfl
      · split
        · split <;> rfl
        · split <;> rfl
    rw [this]; exact ⟨hn, fun h => by simp [effect, connectedAfter]⟩
  | set o v =>
    have : (p.step (.set o v)).1.subscribers = p.subscribers := by simp only [step]; cases o <;> rfl
    rw [this]; exact ⟨hn, fun h => by simp [effect, connectedAfter]⟩
  | subscribe h' n =>
    simp only [step, addSubscriber]
    split
    · rename_i hh
      refine ⟨hn, fun h => ?_⟩
      by_cases he : h' = h
      · subst he; simp only [List.any_eq_true, decide_eq_true_eq] at hh
        obtain ⟨a, ha, rfl⟩ := hh
        simp [effect, connectedAfter]; exact ⟨a.2, ha⟩
      · simp [effect, connectedAfter, he]
    · rename_i hh
      refine ⟨?_, fun h => ?_⟩
      · rw [List.map_append, List.nodup_append]
        refine ⟨hn, by simp, ?_⟩
        intro a ha b hb
        simp at hb; subst hb
        rintro rfl
        simp only [List.mem_map] at ha
        obtain ⟨c, hc, rfl⟩ := ha
        exact hh (List.any_eq_true.2 ⟨c, hc, by simp⟩)
      · by_cases he : h' = h
        · subst he; simp [effect, connectedAfter]
        · simp [effect, connectedAfter, he, Ne.symm he]
  | unsubscribe h' =>
    simp only [step, removeSubscriber]
    rw [filt (fun s => decide (s = h'))]
    refine ⟨hn.filter _, fun h => ?_⟩
    by_cases he : h' = h
    · subst he; simp [effect, connectedAfter]
    · simp [effect, connectedAfter, he, Ne.symm he]
  | disconnect f =>
    simp only [step, disconnectFederate]
    rw [filt (fun s => decide (s.fed = f))]
    refine ⟨hn.filter _, fun h => ?_⟩
    by_cases he : h.fed = f
    · simp [effect, connectedAfter, he]
    · simp [effect, connectedAfter, he]

/-- C35 (publications): after any history of calls on a publication without subscribers, no subscriber is listed twice, and a
subscriber is listed exactly when the last call concerning it (subscribing it, unsubscribing it, or disconnecting its federate)
was a subscription. -/
theorem C35_subscribers (p : Pub) (h0 : p.subscribers = []) (ops : List Op) :
    ((p.run ops).subscribers.map (·.1)).Nodup ∧
    ∀ h, h ∈ (p.run ops).subscribers.map (·.1) ↔ connectedAfter false (ops.map (effect h)) = true := by
  induction ops using snocInd with
  | nil => simp [run, h0, connectedAfter]
  | append_singleton ops x ih =>
    rw [run_append]
    obtain ⟨hn, hm⟩ := ih
    obtain ⟨hn', hm'⟩ := ids_step (p.run ops) x hn
    refine ⟨hn', fun h => ?_⟩
    rw [List.map_append, List.map_cons, List.map_nil, connectedAfter_snoc]
    simp only [run]
    rw [hm' h]
    rw [show decide (h ∈ (p.run ops).subscribers.map (·.1)) = connectedAfter false (ops.map (effect h)) by
      rw [Bool.eq_iff_iff, decide_eq_true_eq]; exact hm h]

example : ((({} : Pub).run [.subscribe ⟨1, 1⟩ "a", .subscribe ⟨2, 1⟩ "b", .subscribe ⟨1, 1⟩ "a", .disconnect 2]).subscribers.map (·.1)) = [⟨1, 1⟩] := by
  decide

/-- C35: adding a subscriber is reported as new exactly if it was not one. -/
theorem C35_subscriber_new (p : Pub) (h : GHandle) (name : String) :
    (p.addSubscriber h name).2 = true ↔ h ∉ p.subscribers.map (·.1) := by
  unfold addSubscriber
  split
  · rename_i hs
    simp only [List.any_eq_true, decide_eq_true_eq] at hs
    obtain ⟨x, hx, rfl⟩ := hs
    simp only [Bool.false_eq_true, false_iff, Decidable.not_not]
    exact List.mem_map_of_mem hx
  · rename_i hs
    simp only [List.any_eq_true, decide_eq_true_eq, not_exists, not_and] at hs
    simp only [true_iff, List.mem_map, not_exists, not_and]
    exact hs

/-- The name list reported for a publication is computed once and kept: a subscriber added afterwards is connected but not
reported. -/
theorem C35_reported_names_counterexample :
    let q := (({} : Pub).step (.subscribe ⟨1, 1⟩ "a")).1
    let r := (q.getTargets id)
    r.2 = "a" ∧ ((r.1.step (.subscribe ⟨2, 1⟩ "b")).1.subscribers.map (·.2)) = ["a", "b"] ∧
      ((r.1.step (.subscribe ⟨2, 1⟩ "b")).1.getTargets id).2 = "a" := by
  decide

end Pub

namespace Endpoint

/-- The connection calls of an endpoint (src/helics/core/FederateState.cpp:1739-1845, src/helics/core/EndpointInfo.cpp:180-261). -/
inductive CallC
  | addDestination (h : GHandle) (name type : String)
  | addSource (h : GHandle) (name type : String)
  | remove (h : GHandle)
  | disconnect (f : FedId)
  deriving Repr

/-- One connection call (src/helics/core/EndpointInfo.cpp:180-261). -/
def stepC (e : Endpoint) : CallC → Endpoint
  | .addDestination h n t => e.addDestination h n t
  | .addSource h n t => e.addSource h n t
  | .remove h => e.removeTarget h
  | .disconnect f => e.disconnectFederate f

/-- A history of connection calls. -/
def runC (e : Endpoint) : List CallC → Endpoint
  | [] => e
  | c :: cs => runC (e.stepC c) cs

theorem runC_append (e : Endpoint) (a b : List CallC) : e.runC (a ++ b) = (e.runC a).runC b := by
  induction a generalizing e with
  | nil => rfl
  | cons x xs ih => exact ih _

/-- What a call means for destination `h`. -/
def effectDest (h : GHandle) : CallC → Effect35
  | .addDestination h' _ _ => if h' = h then .connect else .none
  | .remove h' => if h' = h then .drop else .none
  | .disconnect f => if h.fed = f then .drop else .none
  | _ => .none

/-- What a call means for source `h`. -/
def effectSrc (h : GHandle) : CallC → Effect35
  | .addSource h' _ _ => if h' = h then .connect else .none
  | .remove h' => if h' = h then .drop else .none
  | .disconnect f => if h.fed = f then .drop else .none
  | _ => .none

theorem filter_length_eq {α : Type _} {l : List α} {p : α → Bool} (h : (l.filter p).length = l.length) : l.filter p = l :=
  List.filter_eq_self.2 (by rwa [List.length_filter_eq_length_iff] at h)

theorem dropWhere_info (e : Endpoint) (p : EInfo → Bool) :
    (e.dropWhere p).targetInfo = e.targetInfo.filter (fun t => !p t) ∧ (e.dropWhere p).sources = e.sources.filter (fun t => !p t) ∧
    (e.targets = e.targetInfo.map (fun t => (t.id, t.key)) →
      (e.dropWhere p).targets = (e.dropWhere p).targetInfo.map (fun t => (t.id, t.key))) := by
  unfold dropWhere
  by_cases h1 : e.targetInfo.isEmpty = true
  · by_cases h2 : e.sources.isEmpty = true
    · simp_all
    · simp_all
  · by_cases h3 : (e.targetInfo.filter (fun t => !p t)).length ≠ e.targetInfo.length
    · by_cases h2 : e.sources.isEmpty = true <;> simp_all
    · have h3' := filter_length_eq (Decidable.not_not.1 h3)
      simp only [if_neg h1, if_neg h3]
      rw [h3']
      by_cases h2 : e.sources.isEmpty = true
      · rw [if_pos h2]; refine ⟨rfl, ?_, fun h => h⟩
        rw [List.isEmpty_iff.1 h2]; rfl
      · rw [if_neg h2]; exact ⟨rfl, rfl, fun h => h⟩

/-- The three facts kept by every connection call. -/
structure Lists (e : Endpoint) : Prop where
  dests : (e.targetInfo.map (·.id)).Nodup
  srcs : (e.sources.map (·.id)).Nodup
  mirror : e.targets = e.targetInfo.map (fun t => (t.id, t.key))

theorem ids_filter (l : List EInfo) (c : GHandle → Bool) : (l.filter fun t => !c t.id).map (·.id) = (l.map (·.id)).filter (fun s => !c s) := by
  rw [List.filter_map]; rfl

theorem any_id {l : List EInfo} {h : GHandle} : (l.any fun t => decide (t.id = h)) = true ↔ h ∈ l.map (·.id) := by
  simp only [List.any_eq_true, decide_eq_true_eq, List.mem_map]

theorem lists_step {e : Endpoint} (hl : Lists e) (c : CallC) : Lists (e.stepC c) ∧
    (∀ h, h ∈ (e.stepC c).targetInfo.map (·.id) ↔ connectedAfter (decide (h ∈ e.targetInfo.map (·.id))) [effectDest h c] = true) ∧
    (∀ h, h ∈ (e.stepC c).sources.map (·.id) ↔ connectedAfter (decide (h ∈ e.sources.map (·.id))) [effectSrc h c] = true) := by
  obtain ⟨hd, hs, hm⟩ := hl
  have nodup_snoc : ∀ (l : List EInfo) (x : EInfo), (l.map (·.id)).Nodup → x.id ∉ l.map (·.id) → ((l ++ [x]).map (·.id)).Nodup := by
    intro l x hl hx
    rw [List.map_append, List.nodup_append]
    refine ⟨hl, by simp, ?_⟩
    intro a ha b hb
    simp at hb; subst hb
    rintro rfl
    exact hx ha
  have drop : ∀ (p : GHandle → Bool) (q : EInfo → Bool), (∀ t, q t = p t.id) → Lists (e.dropWhere q) ∧
      (∀ h, h ∈ (e.dropWhere q).targetInfo.map (·.id) ↔ h ∈ e.targetInfo.map (·.id) ∧ p h = false) ∧
      (∀ h, h ∈ (e.dropWhere q).sources.map (·.id) ↔ h ∈ e.sources.map (·.id) ∧ p h = false) := by
    intro p q hq
    obtain rfl : q = fun t => p t.id := funext hq
    obtain ⟨a, b, m⟩ := dropWhere_info e (fun t => p t.id)
    have a' : (e.dropWhere fun t => p t.id).targetInfo.map (·.id) = (e.targetInfo.map (·.id)).filter (fun s => !p s) := by rw [a, ids_filter]
    have b' : (e.dropWhere fun t => p t.id).sources.map (·.id) = (e.sources.map (·.id)).filter (fun s => !p s) := by rw [b, ids_filter]
    refine ⟨⟨by rw [a']; exact hd.filter _, by rw [b']; exact hs.filter _, m hm⟩, fun h => ?_, fun h => ?_⟩
    · rw [a', List.mem_filter]; simp
    · rw [b', List.mem_filter]; simp
  cases c with
  | addDestination h' n t =>
    simp only [stepC, addDestination]
    split
    · rename_i hh
      rw [any_id] at hh
      refine ⟨⟨hd, hs, hm⟩, fun h => ?_, fun h => by simp [effectSrc, connectedAfter]⟩
      by_cases he : h' = h
      · subst he; simp [effectDest, connectedAfter]; simpa using hh
      · simp [effectDest, connectedAfter, he]
    · rename_i hh
      rw [any_id] at hh
      refine ⟨⟨nodup_snoc _ _ hd hh, hs, rfl⟩, fun h => ?_, fun h => by simp [effectSrc, connectedAfter]⟩
      by_cases he : h' = h
      · subst he; simp [effectDest, connectedAfter]
      · simp [effectDest, connectedAfter, he, Ne.symm he]
  | addSource h' n t =>
    simp only [stepC, addSource]
    split
    · rename_i hh
      rw [any_id] at hh
      refine ⟨⟨hd, hs, hm⟩, fun h => by simp [effectDest, connectedAfter], fun h => ?_⟩
      by_cases he : h' = h
      · subst he; simp [effectSrc, connectedAfter]; simpa using hh
      · simp [effectSrc, connectedAfter, he]
    · rename_i hh
      rw [any_id] at hh
      refine ⟨⟨hd, nodup_snoc _ _ hs hh, hm⟩, fun h => by simp [effectDest, connectedAfter], fun h => ?_⟩
      by_cases he : h' = h
      · subst he; simp [effectSrc, connectedAfter]
      · simp [effectSrc, connectedAfter, he, Ne.symm he]
  | remove h' =>
    obtain ⟨l, a, b⟩ := drop (fun h => decide (h = h')) (fun t => decide (t.id = h')) (fun _ => rfl)
    refine ⟨l, fun h => ?_, fun h => ?_⟩
    · refine (a h).trans ?_
      by_cases he : h' = h
      · subst he; simp [effectDest, connectedAfter]
      · simp [effectDest, connectedAfter, he, Ne.symm he]
    · refine (b h).trans ?_
      by_cases he : h' = h
      · subst he; simp [effectSrc, connectedAfter]
      · simp [effectSrc, connectedAfter, he, Ne.symm he]
  | disconnect f =>
    obtain ⟨l, a, b⟩ := drop (fun h => decide (h.fed = f)) (fun t => decide (t.id.fed = f)) (fun _ => rfl)
    refine ⟨l, fun h => ?_, fun h => ?_⟩
    · refine (a h).trans ?_
      by_cases he : h.fed = f
      · simp [effectDest, connectedAfter, he]
      · simp [effectDest, connectedAfter, he]
    · refine (b h).trans ?_
      by_cases he : h.fed = f
      · simp [effectSrc, connectedAfter, he]
      · simp [effectSrc, connectedAfter, he]

/-- C35 (endpoints): after any history of connection calls on an unconnected endpoint, no destination and no source is listed
twice, the list messages are sent to is exactly the list of connected destinations with their names, and a destination (a source)
is listed exactly when the last call concerning it connected it. -/
theorem C35_endpoint_lists (e : Endpoint) (h0 : e.targetInfo = []) (h1 : e.sources = []) (h2 : e.targets = []) (cs : List CallC) :
    ((e.runC cs).targetInfo.map (·.id)).Nodup ∧ ((e.runC cs).sources.map (·.id)).Nodup ∧
    (e.runC cs).targets = (e.runC cs).targetInfo.map (fun t => (t.id, t.key)) ∧
    (∀ h, h ∈ (e.runC cs).targets.map (·.1) ↔ connectedAfter false (cs.map (effectDest h)) = true) ∧
    (∀ h, h ∈ (e.runC cs).sources.map (·.id) ↔ connectedAfter false (cs.map (effectSrc h)) = true) := by
  suffices h : Lists (e.runC cs) ∧
      (∀ h, h ∈ (e.runC cs).targetInfo.map (·.id) ↔ connectedAfter false (cs.map (effectDest h)) = true) ∧
      (∀ h, h ∈ (e.runC cs).sources.map (·.id) ↔ connectedAfter false (cs.map (effectSrc h)) = true) by
    obtain ⟨⟨a, b, c⟩, d, f⟩ := h
    refine ⟨a, b, c, fun h => ?_, f⟩
    rw [← d h, c, List.map_map]; rfl
  induction cs using Pub.snocInd with
  | nil => exact ⟨⟨by simp [runC, h0], by simp [runC, h1], by simp [runC, h0, h2]⟩, by simp [runC, h0, connectedAfter], by simp [runC, h1, connectedAfter]⟩
  | append_singleton cs x ih =>
    obtain ⟨hl, hd, hs⟩ := ih
    obtain ⟨hl', hd', hs'⟩ := lists_step hl x
    rw [runC_append]
    refine ⟨hl', fun h => ?_, fun h => ?_⟩
    · rw [List.map_append, List.map_cons, List.map_nil, connectedAfter_snoc]
      simp only [runC]; rw [hd' h]
      rw [show decide (h ∈ (e.runC cs).targetInfo.map (·.id)) = connectedAfter false (cs.map (effectDest h)) by
        rw [Bool.eq_iff_iff, decide_eq_true_eq]; exact hd h]
    · rw [List.map_append, List.map_cons, List.map_nil, connectedAfter_snoc]
      simp only [runC]; rw [hs' h]
      rw [show decide (h ∈ (e.runC cs).sources.map (·.id)) = connectedAfter false (cs.map (effectSrc h)) by
        rw [Bool.eq_iff_iff, decide_eq_true_eq]; exact hs h]

example : ((({} : Endpoint).runC [.addDestination ⟨1, 1⟩ "a" "", .addSource ⟨1, 1⟩ "a" "", .addDestination ⟨2, 1⟩ "b" "",
    .addDestination ⟨1, 1⟩ "a" "", .remove ⟨1, 1⟩]).targets) = [(⟨2, 1⟩, "b")] := by decide

/-- The reported destination names are computed once and kept. -/
theorem C35_endpoint_names_counterexample :
    let e := ({} : Endpoint).stepC (.addDestination ⟨1, 1⟩ "a" "")
    let r := e.getDestinationTargets id
    r.2 = "a" ∧ ((r.1.stepC (.addDestination ⟨2, 1⟩ "b" "")).targets.map (·.2)) = ["a", "b"] ∧
      ((r.1.stepC (.addDestination ⟨2, 1⟩ "b" "")).getDestinationTargets id).2 = "a" := by
  decide

end Endpoint

namespace Input

/-- Specification: the connection of source `h` as the user sees it — nothing, or its name and the time up to which its values are
accepted.  Connecting opens it for ever (the first name is kept), removing it or disconnecting its federate closes it at the
given time. -/
def connection (h : GHandle) (c : Option (String × Time)) : Op → Option (String × Time)
  | .addSource h' n _ _ => if h' = h then some ((c.map (·.1)).getD n, maxVal) else c
  | .remove h' T => if h' = h then c.map (fun x => (x.1, min T x.2)) else c
  | .removeNamed n T => c.map (fun x => if x.1 = n then (x.1, min T x.2) else x)
  | .disconnect f T => if h.fed = f then c.map (fun x => (x.1, min T x.2)) else c
  | _ => c

/-- Name and closing time kept by the input. -/
def viewL (h : GHandle) (l : List Src) : Option (String × Time) :=
  (l.find? (fun s => decide (s.handle = h))).map (fun s => (s.key, s.deact))

theorem viewL_slot (i : Input) (h : GHandle) : viewL h i.srcs = (i.slot h).map (fun s => (s.key, s.deact)) := rfl

theorem viewL_map {l : List Src} {g : Src → Src} (hg : ∀ s ∈ l, (g s).handle = s.handle) (h : GHandle) (t : String × Time → String × Time)
    (ht : ∀ s ∈ l, s.handle = h → ((g s).key, (g s).deact) = t (s.key, s.deact)) : viewL h (l.map g) = (viewL h l).map t := by
  unfold viewL
  rw [find_map hg h]
  cases hf : l.find? (fun s => decide (s.handle = h)) with
  | none => rfl
  | some s =>
    have := ht s (List.mem_of_find?_eq_some hf) (by simpa using List.find?_some hf)
    simp [this]

theorem reconnect_view {h : GHandle} {u : String} {l l' : List Src} {b : Bool} (he : reconnect h u l = some (l', b)) (h' : GHandle) :
    viewL h' l' = if h' = h then (viewL h' l).map (fun c => (c.1, if c.2 < maxVal then maxVal else c.2)) else viewL h' l := by
  induction l generalizing l' with
  | nil => cases he
  | cons a as ih =>
    unfold reconnect at he
    split at he
    · rename_i hh
      by_cases e : h' = h
      · subst e
        split at he <;> cases he <;> rename_i hd <;> simp [viewL, hh, hd]
      · have : a.handle ≠ h' := fun x => e (x.symm.trans hh)
        have this' : ¬ h = h' := fun x => e x.symm
        split at he <;> cases he <;> simp [viewL, hh, this', e]
    · rename_i hh
      cases hr : reconnect h u as with
      | none => rw [hr] at he; cases he
      | some r =>
        obtain ⟨l2, b2⟩ := r
        rw [hr] at he; cases he
        have := ih hr
        by_cases e : a.handle = h'
        · have e' : ¬ h' = h := fun x => hh (e.trans x)
          simp [viewL, e, e']
        · simp only [viewL, List.find?_cons, e, decide_false] at this ⊢
          exact this

theorem view_le (h : GHandle) (ops : List Op) : ∀ c ∈ ops.foldl (connection h) none, c.2 ≤ maxVal := by
  induction ops using Pub.snocInd with
  | nil => simp
  | append_singleton ops x ih =>
    rw [List.foldl_append]
    generalize ops.foldl (connection h) none = c at *
    intro y hy
    cases x <;> simp only [List.foldl_cons, List.foldl_nil, connection] at hy
    case add => exact ih y hy
    case upTo => exact ih y hy
    case inclusive => exact ih y hy
    case nextIteration => exact ih y hy
    case clear => exact ih y hy
    case set => exact ih y hy
    case addSource =>
      split at hy
      · simp at hy; subst hy; exact Int.le_refl _
      · exact ih y hy
    case remove T =>
      split at hy
      · cases c with
        | none => simp at hy
        | some c => simp at hy; subst hy; have := ih c (by simp); dsimp only; omega
      · exact ih y hy
    case removeNamed T =>
      cases c with
      | none => simp at hy
      | some c =>
        have := ih c (by simp)
        simp at hy; subst hy; split
        · dsimp only; omega
        · exact this
    case disconnect T =>
      split at hy
      · cases c with
        | none => simp at hy
        | some c => simp at hy; subst hy; have := ih c (by simp); dsimp only; omega
      · exact ih y hy

theorem view_step {i : Input} (hi : Inv i) (h : GHandle) (hle : ∀ c ∈ viewL h i.srcs, c.2 ≤ maxVal) (o : Op) :
    viewL h (i.step o).1.srcs = connection h (viewL h i.srcs) o := by
  cases o with
  | add h' t it d =>
    simp only [step, connection]
    cases hb : (i.addData h' t it d).2
    · rw [addData_false hb]
    · obtain ⟨b, s, _, h1, _, _, h2, h3, _⟩ := addData_true hi hb
      rw [viewL_slot, viewL_slot]
      by_cases e : h = h'
      · subst e; rw [h1, h2]; rfl
      · rw [h3 h e]
  | upTo T =>
    simp only [step, connection, updateTimeUpTo_eq]
    rw [viewL_slot, moved_slot (fun s _ => consumes_upTo i.onlyChange T s), viewL_slot]
    cases i.slot h with
    | none => rfl
    | some s => simp [(consumes_upTo i.onlyChange T s).key, (consumes_upTo i.onlyChange T s).deact]
  | inclusive T =>
    simp only [step, connection, updateTimeInclusive_eq]
    rw [viewL_slot, moved_slot (fun s _ => consumes_inclusive i.onlyChange T s), viewL_slot]
    cases i.slot h with
    | none => rfl
    | some s => simp [(consumes_inclusive i.onlyChange T s).key, (consumes_inclusive i.onlyChange T s).deact]
  | nextIteration T =>
    simp only [step, connection, updateTimeNextIteration_eq]
    rw [viewL_slot, moved_slot (fun s _ => srcNextIter_consumes i.onlyChange T s), viewL_slot]
    cases i.slot h with
    | none => rfl
    | some s => simp [(srcNextIter_consumes i.onlyChange T s).key, (srcNextIter_consumes i.onlyChange T s).deact]
  | addSource h' n ty u =>
    simp only [step, connection, addSource]
    split
    · rename_i ss b hr
      dsimp only
      rw [reconnect_view hr h]
      by_cases e : h = h'
      · subst e
        obtain ⟨_, s, _, _, hc⟩ := reconnect_some hr
        have hex : ∃ s ∈ i.srcs, s.handle = h := by
          rcases hc with ⟨e1, e2, _⟩ | ⟨_, _, s, e3, e4⟩
          · exact ⟨s, by rw [e1]; simp, e2⟩
          · exact ⟨s, e3, e4⟩
        cases hv : viewL h i.srcs with
        | none =>
          obtain ⟨s, hs, rfl⟩ := hex
          unfold viewL at hv; rw [find_of_mem hi.nodup hs] at hv; cases hv
        | some c =>
          have := hle c (by rw [hv]; rfl)
          simp; omega
      · simp [e, Ne.symm e]
    · rename_i hr
      have hno := reconnect_none hr
      dsimp only
      unfold viewL
      rw [List.find?_append]
      by_cases e : h = h'
      · subst e
        have : i.srcs.find? (fun s => decide (s.handle = h)) = none := by
          rw [List.find?_eq_none]; intro x hx; simpa using hno x hx
        rw [this]; simp
      · have e' : ¬ h' = h := fun x => e x.symm
        simp [e']
  | remove h' T =>
    simp only [step, connection, removeSource, removeLoop_eq]
    by_cases e : h' = h
    · subst e
      rw [if_pos rfl]
      refine viewL_map (fun s _ => ?_) h' _ (fun s _ hs => ?_)
      · split
        · exact (srcRemove_facts T s).2.1
        · rfl
      · simp [hs, (srcRemove_facts T s).2.2.2.2.1, (srcRemove_facts T s).2.2.2.2.2.1]
    · rw [if_neg e]
      refine (viewL_map (t := id) (fun s _ => ?_) h (fun s _ hs => ?_)).trans (by simp)
      · split
        · exact (srcRemove_facts T s).2.1
        · rfl
      · have : ¬ h = h' := fun x => e x.symm
        simp [hs, this]
  | removeNamed n T =>
    simp only [step, connection, removeSourceNamed, removeLoop_eq]
    refine viewL_map (fun s _ => ?_) h _ (fun s _ hs => ?_)
    · split
      · exact (srcRemove_facts T s).2.1
      · rfl
    · by_cases e : s.key = n
      · simp [e, (srcRemove_facts T s).2.2.2.2.1, (srcRemove_facts T s).2.2.2.2.2.1]
      · simp [e]
  | disconnect f T =>
    have hd : ∀ s : Src, (deactivate T s).key = s.key ∧ (deactivate T s).deact = min T s.deact := by
      intro s; unfold deactivate; split
      · rename_i hh; exact ⟨rfl, by dsimp only; omega⟩
      · rename_i hh; exact ⟨rfl, by omega⟩
    simp only [step, connection, disconnectFederate]
    by_cases e : h.fed = f
    · rw [if_pos e]
      refine viewL_map (fun s _ => ?_) h _ (fun s _ hs => ?_)
      · split
        · exact (deactivate_facts T s).1
        · rfl
      · simp [hs, e, hd s]
    · rw [if_neg e]
      refine (viewL_map (t := id) (fun s _ => ?_) h (fun s _ hs => ?_)).trans (by simp)
      · split
        · exact (deactivate_facts T s).1
        · rfl
      · simp [hs, e]
  | clear =>
    simp only [step, connection, clearFutureData]
    rw [viewL_map (g := fun s => { s with queue := [] }) (t := id) (fun s _ => rfl) h (fun s _ hs => rfl)]; simp
  | set o v => simp only [step, connection]; rw [(setProperty_srcs i o v).1]

/-- C35 (inputs): after any history of calls on an unconnected input, no source is listed twice, and each source is listed with
the name and closing time given by the connection calls of the history; a source never connected is not listed. -/
theorem C35_sources (i : Input) (h0 : i.srcs = []) (hq : i.queued = 0) (ops : List Op) :
    ((i.run ops).srcs.map (·.handle)).Nodup ∧
    ∀ h, ((i.run ops).slot h).map (fun s => (s.key, s.deact)) = ops.foldl (connection h) none := by
  refine ⟨(run_inv (fresh_inv i h0 hq) ops).nodup, fun h => ?_⟩
  induction ops using Pub.snocInd with
  | nil => simp [run, slot, h0]
  | append_singleton ops x ih =>
    rw [run_append, List.foldl_append]
    have := view_step (run_inv (fresh_inv i h0 hq) ops) h (by rw [viewL_slot, ih]; exact view_le h ops) x
    rw [viewL_slot, viewL_slot, ih] at this
    exact this

/-- C35 (inputs): a value is refused when its source was never connected or is closed before the value's time, and after removing
a source no value later than the removal is waiting from it. -/
theorem C35_removed_source_is_silent (i : Input) (h0 : i.srcs = []) (hq : i.queued = 0) (ops : List Op) (h : GHandle) :
    (∀ t it d, ((i.run ops).step (.add h t it d)).2 = true → ∃ n T, ops.foldl (connection h) none = some (n, T) ∧ t ≤ T) ∧
    (∀ T, ∀ s ∈ (i.run (ops ++ [.remove h T])).srcs, s.handle = h → ∀ r ∈ s.queue, r.time ≤ T) := by
  have hi := run_inv (fresh_inv i h0 hq) ops
  have hv := (C35_sources i h0 hq ops).2 h
  constructor
  · intro t it d hb
    simp only [step] at hb
    obtain ⟨b, s, _, h1, h2, _⟩ := addData_true hi hb
    rw [h1] at hv
    exact ⟨s.key, s.deact, hv.symm, h2⟩
  · intro T s hs hh r hr
    rw [run_append] at hs
    simp only [run, step, removeSource, removeLoop_eq] at hs
    obtain ⟨s0, hs0, rfl⟩ := List.mem_map.1 hs
    by_cases e : s0.handle = h
    · simp only [e, decide_true, if_true] at hr
      have hso := hi.sorted s0 hs0
      unfold srcRemove at hr
      simp only [popBack_eq] at hr
      rw [show (deactivate T { s0 with queue := _ }).queue = _ from by unfold deactivate; split <;> rfl] at hr
      dsimp only at hr
      rw [List.mem_reverse] at hr
      have hso' : s0.queue.reverse.Pairwise (fun a b => b.time ≤ a.time) := by
        rw [List.pairwise_reverse]
        refine hso.imp ?_
        intro a b hab
        exact hab.time
      generalize s0.queue.reverse = l at *
      clear hs0 hs
      induction l with
      | nil => cases hr
      | cons a as ih =>
        rw [List.pairwise_cons] at hso'
        rw [List.dropWhile_cons] at hr
        split at hr
        · exact ih hr hso'.2
        · rename_i hc
          simp at hc
          rcases List.mem_cons.1 hr with rfl | hr
          · exact hc
          · exact Int.le_trans (hso'.1 r hr) hc
    · simp only [e, decide_false] at hh
      exact absurd hh e

example : ((({} : Input).run [.addSource ⟨1, 1⟩ "a" "" "", .addSource ⟨2, 1⟩ "b" "" "", .remove ⟨1, 1⟩ 10, .addSource ⟨1, 1⟩ "z" "" "", .disconnect 2 5]).srcs.map
    (fun s => (s.handle, s.key, s.deact))) = [(⟨1, 1⟩, "a", maxVal), (⟨2, 1⟩, "b", 5)] := by decide

/-- On reconnection the source's type is overwritten with the units it was given (InputInfo.cpp:193-194). -/
theorem C35_reconnected_type_counterexample :
    ((({} : Input).run [.addSource ⟨1, 1⟩ "a" "double" "m", .remove ⟨1, 1⟩ 10, .addSource ⟨1, 1⟩ "a" "double" "m"]).srcs.map (·.type)) = ["m"] := by
  decide

end Input
end Verif
