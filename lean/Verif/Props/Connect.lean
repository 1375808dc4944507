import Verif.Model.Connect
import Verif.Props.Handles
import Verif.Props.Flags
/-!
# C27: every connection asked for is made exactly once, in whatever order names and requests arrive

A history of the root broker is any interleaving of registrations, requests by name and links.  The specification
keeps the list of interfaces registered (`R`) and the list of everything asked for (`W`).  Once the history is over, what
has been sent is exactly what `W` and `R` call for: for each request or link whose interfaces are all registered the two
messages that connect them, once; for each other one nothing has been sent, and it is still listed as pending.  The
order in which registrations and requests arrived does not matter.
-/
namespace Verif
namespace Broker
open HM (Entry Hist RegOp serves fresh)

/-! ### Specification -/

/-- what a connection message means to the one who gets it: who is to be connected, whether as a destination, and for
filters whether the filter clones -/
structure CView where
  act : CAct
  src : GHandle
  dst : GHandle
  dest : Bool := false
  clone : Bool := false
  deriving DecidableEq, Repr

/-- the meaning of a message -/
def view (m : CMsg) : CView where
  act := m.act
  src := m.src
  dst := m.dst
  dest := match m.act with | .addEndpoint | .addFilter => m.flags.getLsbD 1 | _ => false
  clone := match m.act with | .addFilter => m.flags.getLsbD 9 | _ => false

/-- publication `p` and input `i` are told of each other -/
def joinValue (p i : GHandle) : List CView := [⟨.addPublisher, p, i, false, false⟩, ⟨.addSubscriber, i, p, false, false⟩]
/-- endpoint `x` is told that `y` is a destination and `y` that `x` is a source -/
def joinEndpoints (x y : GHandle) : List CView := [⟨.addEndpoint, y, x, true, false⟩, ⟨.addEndpoint, x, y, false, false⟩]
/-- filter `f` and endpoint `e` are told of each other -/
def joinFilter (f e : GHandle) (dest clone : Bool) : List CView := [⟨.addFilter, f, e, dest, clone⟩, ⟨.addEndpoint, e, f, dest, false⟩]

/-- something a user asked for -/
inductive Wish
  | need (w : Want) (name : IName) (src : GHandle) (dest clone filterAsks : Bool)
  | data (source target : IName)
  | endpoints (source target : IName)
  | filt (filter ept : IName) (dest : Bool)

/-- the interface registered under a name, by kind of request -/
abbrev Registry := Want → IName → Option HInfo

/-- The interfaces of the list `R` as a registry. -/
def registry (R : List Entry) : Registry := fun w name =>
  ((R.find? fun e => decide (e.info.key = name ∧ w.kind ∈ serves e.info.kind)).map Entry.info)

/-- the outcome of a wish: a connection message, or the names that are missing -/
inductive Ev
  | sent (v : CView)
  | missing (names : List (Want × IName))
  deriving DecidableEq

/-- What a wish calls for, given what is registered. -/
def report (F : Registry) : Wish → List Ev
  | .need .pub n s _ _ _ => match F .pub n with
    | some r => (joinValue r.gh s).map .sent
    | none => [.missing [(.pub, n)]]
  | .need .inp n s _ _ _ => match F .inp n with
    | some r => (joinValue s r.gh).map .sent
    | none => [.missing [(.inp, n)]]
  | .need .ept n s dest clone true => match F .ept n with
    | some r => (joinFilter s r.gh dest clone).map .sent
    | none => [.missing [(.ept, n)]]
  | .need .ept n s dest _ false => match F .ept n with
    | some r => (if dest then joinEndpoints s r.gh else joinEndpoints r.gh s).map .sent
    | none => [.missing [(.ept, n)]]
  | .need .filt n s dest clone _ => match F .filt n with
    | some r => (joinFilter r.gh s dest (clone || r.flags.getLsbD 9)).map .sent
    | none => [.missing [(.filt, n)]]
  | .data a b => match F .pub a, F .inp b with
    | some p, some i => (joinValue p.gh i.gh).map .sent
    | some _, none => [.missing [(.inp, b)]]
    | none, some _ => [.missing [(.pub, a)]]
    | none, none => [.missing [(.pub, a), (.inp, b)]]
  | .endpoints a b => match F .ept a, F .ept b with
    | some x, some y => (joinEndpoints x.gh y.gh).map .sent
    | some _, none => [.missing [(.ept, b)]]
    | none, some _ => [.missing [(.ept, a)]]
    | none, none => [.missing [(.ept, a), (.ept, b)]]
  | .filt a b dest => match F .filt a, F .ept b with
    | some f, some e => (joinFilter f.gh e.gh dest (f.flags.getLsbD 9)).map .sent
    | some _, none => [.missing [(.ept, b)]]
    | none, some _ => [.missing [(.filt, a)]]
    | none, none => [.missing [(.filt, a), (.ept, b)]]

/-- A request as a core sends it: the requester is registered; it asks for an endpoint either as an endpoint or as a
filter, and a filter passes on its own clone mark. -/
def sane (R : List Entry) (w : Want) (src : GHandle) (fl : BitVec 16) (isEpt : Bool) : Prop :=
  ∃ e ∈ R, e.info.gh = src ∧ (w = .ept → (isEpt = true ∧ e.info.kind ≠ .filter) ∨
    (isEpt = false ∧ e.info.kind = .filter ∧ fl.getLsbD 9 = e.info.flags.getLsbD 9))

/-- Histories of the root broker before it starts operating. -/
inductive BHist : Broker → List Entry → List Wish → Prop
  | start : BHist {} [] []
  | register {b R W} (g : GHandle) (k : IfKind) (name : IName) (fl : BitVec 16) : BHist b R W →
      (∀ e ∈ R, e.info.gh ≠ g) → (k = .filter → fl.getLsbD 1 = false) → (b.register g k name fl).2 = true →
      BHist (b.register g k name fl).1
        (⟨b.handles.handles.length, ⟨g, k, if name = [] then b.handles.generateName k else name, fl⟩⟩ :: R) W
  | duplicate {b R W} (g : GHandle) (k : IfKind) (name : IName) (fl : BitVec 16) : BHist b R W →
      b.duplicate k name = true → BHist (b.register g k name fl).1 R W
  | request {b R W} (w : Want) (name : IName) (src : GHandle) (fl : BitVec 16) (isEpt : Bool) : BHist b R W →
      sane R w src fl isEpt →
      BHist (b.request w name src fl isEpt) R (W ++ [.need w name src (fl.getLsbD 1) (fl.getLsbD 9) (!isEpt)])
  | dataLink {b R W} (s t : IName) : BHist b R W → BHist (b.dataLink s t) R (W ++ [.data s t])
  | endpointLink {b R W} (s t : IName) : BHist b R W → BHist (b.endpointLink s t) R (W ++ [.endpoints s t])
  | filterLink {b R W} (f e : IName) (dest : Bool) : BHist b R W → BHist (b.filterLink f e dest) R (W ++ [.filt f e dest])

/-! ### Accounting -/

/-- the registry the table itself provides -/
def table (b : Broker) : Registry := fun w n => b.handles.byName n w.kind

/-- `F` knows everything the table knows -/
def Knows (F : Registry) (b : Broker) : Prop := ∀ w n r, b.table w n = some r → F w n = some r

/-- the requester is a filter -/
def asksFilter (hm : HM) (src : GHandle) : Bool :=
  match hm.findHandle src with | some f => decide (f.kind = .filter) | none => false

def repU (F : Registry) (w : Want) (p : IName × GHandle × BitVec 16) : List Ev :=
  report F (.need w p.1 p.2.1 (p.2.2.getLsbD 1) (p.2.2.getLsbD 9) false)
def repE (F : Registry) (hm : HM) (p : IName × GHandle × BitVec 16) : List Ev :=
  report F (.need .ept p.1 p.2.1 (p.2.2.getLsbD 1) (p.2.2.getLsbD 9) (asksFilter hm p.2.1))

/-- everything pending, as reported under `F` -/
def pending (F : Registry) (b : Broker) : List Ev :=
  b.uPubs.flatMap (repU F .pub) ++ b.uInps.flatMap (repU F .inp) ++ b.uEpts.flatMap (repE F b.handles) ++
  b.uFilts.flatMap (repU F .filt) ++ b.links.flatMap (fun p => report F (.data p.1 p.2)) ++
  b.eptLinks.flatMap (fun p => report F (.endpoints p.1 p.2)) ++
  b.srcFilts.flatMap (fun p => report F (.filt p.1 p.2 false)) ++ b.dstFilts.flatMap (fun p => report F (.filt p.1 p.2 true))

/-- what was sent and what is pending under `F`, counted -/
def total (F : Registry) (b : Broker) (e : Ev) : Nat := (b.out.map (fun m => Ev.sent (view m)) ++ pending F b).count e

theorem total_eq (F : Registry) (b : Broker) (e : Ev) : total F b e =
    (b.out.map (fun m => Ev.sent (view m))).count e + (b.uPubs.flatMap (repU F .pub)).count e + (b.uInps.flatMap (repU F .inp)).count e +
    (b.uEpts.flatMap (repE F b.handles)).count e + (b.uFilts.flatMap (repU F .filt)).count e +
    (b.links.flatMap (fun p => report F (.data p.1 p.2))).count e +
    (b.eptLinks.flatMap (fun p => report F (.endpoints p.1 p.2))).count e +
    (b.srcFilts.flatMap (fun p => report F (.filt p.1 p.2 false))).count e +
    (b.dstFilts.flatMap (fun p => report F (.filt p.1 p.2 true))).count e := by
  unfold total pending
  simp only [List.count_append]
  omega

theorem total_send (F : Registry) (b : Broker) (ms : List CMsg) (e : Ev) :
    total F (b.send ms) e = total F b e + (ms.map (fun m => Ev.sent (view m))).count e := by
  rw [total_eq, total_eq]
  simp only [send, List.map_append, List.count_append]
  omega

theorem count_split {α : Type} (m : List (IName × α)) (key : IName) (g : IName × α → List Ev) (e : Ev) :
    (m.flatMap g).count e = ((targets m key).flatMap (fun t => g (key, t))).count e + ((clear m key).flatMap g).count e := by
  induction m with
  | nil => rfl
  | cons p m ih =>
    simp only [targets, clear] at ih ⊢
    obtain ⟨a, t⟩ := p
    by_cases h : a = key
    · subst h
      simp only [List.filter_cons, beq_self_eq_true, if_true, List.map_cons, List.flatMap_cons, List.count_append, Bool.not_true]
      rw [if_neg (by simp)]
      omega
    · have : (a == key) = false := by simpa using h
      simp only [List.filter_cons, this, List.flatMap_cons, List.count_append, Bool.not_false, if_true]
      rw [if_neg (by simp)]
      omega

theorem clear_of_targets {α : Type} {m : List (IName × α)} {key : IName} (h : (targets m key).isEmpty = true) : clear m key = m := by
  unfold clear
  unfold targets at h
  rw [List.filter_eq_self]
  intro p hp
  by_cases e : p.1 = key
  · exfalso
    have : p.2 ∈ (m.filter (fun p => p.1 == key)).map (·.2) := List.mem_map.mpr ⟨p, List.mem_filter.mpr ⟨hp, by simpa using e⟩, rfl⟩
    rw [List.isEmpty_iff.mp h] at this
    cases this
  · simpa using e

/-! Requests -/

/-- what is found is what was called for -/
theorem found_events (F : Registry) (b : Broker) (w : Want) (r : HInfo) (n : IName) (src : GHandle) (fl : BitVec 16) (isEpt : Bool)
    (hF : F w n = some r)
    (hs : w = .ept → isEpt = false → ∀ f, b.handles.findHandle src = some f → f.flags.getLsbD 9 = true → fl.getLsbD 9 = true) (e : Ev) :
    ((b.found w r src fl isEpt).map (fun m => Ev.sent (view m))).count e =
      (report F (.need w n src (fl.getLsbD 1) (fl.getLsbD 9) (!isEpt))).count e := by
  cases w with
  | pub =>
    simp only [found, report, hF, joinValue, List.map_cons, List.map_nil, view]
    exact (List.Perm.swap _ _ _).count_eq _
  | inp =>
    simp only [found, report, hF, joinValue, List.map_cons, List.map_nil, view]
  | filt =>
    have h1 : ∀ x, (if Flags.checkFlag r.flags cloneFlag = true then Flags.setFlag fl cloneFlag else fl).getLsbD x =
        if x < 16 then (if x = 9 then (fl.getLsbD 9 || r.flags.getLsbD 9) else fl.getLsbD x) else false := by
      intro x
      by_cases hx : x < 16
      · rw [if_pos hx, Flags.C28_check _ _ (by decide)]
        split
        · rename_i h; rw [Flags.C28_set _ _ _ hx]
          have h' : r.flags.getLsbD 9 = true := h
          by_cases e : x = 9
          · subst e; rw [if_pos (show 9 = cloneFlag from rfl), if_pos rfl, h', Bool.or_true]
          · rw [if_neg (show ¬ x = cloneFlag from e), if_neg e]
        · rename_i h
          have h' : r.flags.getLsbD 9 = false := Bool.eq_false_iff.mpr h
          by_cases e : x = 9
          · subst e; rw [if_pos rfl, h', Bool.or_false]
          · rw [if_neg e]
      · rw [if_neg hx]; exact BitVec.getLsbD_of_ge _ _ (by omega)
    simp only [found, report, hF, joinFilter, List.map_cons, List.map_nil, view, h1]
    exact (List.Perm.swap _ _ _).count_eq _
  | ept =>
    cases isEpt with
    | true =>
      have h1 : (Flags.toggleAction fl destTarget).getLsbD 1 = !(fl.getLsbD 1) := by
        rw [Flags.C28_toggle _ _ _ (by decide) (by decide), if_pos (show 1 = destTarget from rfl)]
      have h2 : (Flags.toggleAction (Flags.toggleAction fl destTarget) destTarget).getLsbD 1 = fl.getLsbD 1 := by
        rw [Flags.C28_toggle _ _ _ (by decide) (by decide), if_pos (show 1 = destTarget from rfl), h1, Bool.not_not]
      simp only [found, report, hF, joinEndpoints, view, if_true, List.map_cons, List.map_nil, h1, h2, Bool.not_true]
      cases fl.getLsbD 1 with
      | true => exact (List.Perm.swap _ _ _).count_eq _
      | false => rfl
    | false =>
      obtain ⟨x, hx, h9, h1⟩ : ∃ x : BitVec 16, b.found .ept r src fl false = [⟨.addFilter, src, r.gh, x⟩, ⟨.addEndpoint, r.gh, src, x⟩] ∧
          x.getLsbD 9 = fl.getLsbD 9 ∧ x.getLsbD 1 = fl.getLsbD 1 := by
        refine ⟨_, rfl, ?_⟩
        split
        · rename_i f hf
          split
          · rename_i hc
            rw [Flags.C28_check _ _ (by decide)] at hc
            rw [Flags.C28_set _ _ _ (by decide), Flags.C28_set _ _ _ (by decide)]
            exact ⟨by rw [if_pos (show 9 = cloneFlag from rfl), hs rfl rfl f hf hc], by rw [if_neg (show ¬ 1 = cloneFlag by decide)]⟩
          · exact ⟨rfl, rfl⟩
        · exact ⟨rfl, rfl⟩
      rw [hx]
      simp only [report, hF, joinFilter, view, List.map_cons, List.map_nil, h9, h1, Bool.not_false]

@[simp] theorem addReconnectable_out (b : Broker) (w n s fl) : (b.addReconnectable w n s fl).out = b.out := by
  unfold addReconnectable; split <;> (try cases w) <;> rfl
@[simp] theorem addReconnectable_handles (b : Broker) (w n s fl) : (b.addReconnectable w n s fl).handles = b.handles := by
  unfold addReconnectable; split <;> (try cases w) <;> rfl
@[simp] theorem addReconnectable_operating (b : Broker) (w n s fl) : (b.addReconnectable w n s fl).operating = b.operating := by
  unfold addReconnectable; split <;> (try cases w) <;> rfl
theorem addReconnectable_total (F : Registry) (b : Broker) (w n s fl e) : total F (b.addReconnectable w n s fl) e = total F b e := by
  unfold addReconnectable; split <;> (try cases w) <;> rfl

@[simp] theorem request_handles (b : Broker) (w n s fl i) : (b.request w n s fl i).handles = b.handles := by
  unfold request; simp only; split
  · simp [send]
  · unfold addUnknown; cases w <;> simp
@[simp] theorem request_operating (b : Broker) (w n s fl i) : (b.request w n s fl i).operating = b.operating := by
  unfold request; simp only; split
  · simp [send]
  · unfold addUnknown; cases w <;> simp

/-- the clone mark of a filter is in its requests -/
def cloneOk (b : Broker) (w : Want) (src : GHandle) (fl : BitVec 16) (isEpt : Bool) : Prop :=
  w = .ept → isEpt = false → ∀ f, b.handles.findHandle src = some f → f.flags.getLsbD 9 = true → fl.getLsbD 9 = true

theorem request_total (F : Registry) (b : Broker) (w : Want) (n : IName) (src : GHandle) (fl : BitVec 16) (isEpt : Bool)
    (hF : Knows F b) (hs : cloneOk b w src fl isEpt) (ha : w = .ept → asksFilter b.handles src = !isEpt) (e : Ev) :
    total F (b.request w n src fl isEpt) e = total F b e + (report F (.need w n src (fl.getLsbD 1) (fl.getLsbD 9) (!isEpt))).count e := by
  unfold request
  simp only
  split
  · rename_i r hr
    rw [addReconnectable_handles] at hr
    rw [total_send, addReconnectable_total, found_events F _ w r n src fl isEpt (hF w n r hr)]
    intro h1 h2 f hf
    rw [addReconnectable_handles] at hf
    exact hs h1 h2 f hf
  · rw [← addReconnectable_total F b w n src fl e]
    have hh : (b.addReconnectable w n src fl).handles = b.handles := by simp
    generalize b.addReconnectable w n src fl = b' at hh ⊢
    have same : ∀ w', w' ≠ .ept → report F (.need w' n src (fl.getLsbD 1) (fl.getLsbD 9) false) =
        report F (.need w' n src (fl.getLsbD 1) (fl.getLsbD 9) (!isEpt)) := by
      intro w' h; cases w' <;> simp [report] at h ⊢
    cases w with
    | pub => rw [total_eq, total_eq]; simp only [addUnknown, List.flatMap_append, List.count_append, List.flatMap_cons, List.flatMap_nil, List.append_nil, repU]; rw [same .pub (by decide)]; omega
    | inp => rw [total_eq, total_eq]; simp only [addUnknown, List.flatMap_append, List.count_append, List.flatMap_cons, List.flatMap_nil, List.append_nil, repU]; rw [same .inp (by decide)]; omega
    | filt => rw [total_eq, total_eq]; simp only [addUnknown, List.flatMap_append, List.count_append, List.flatMap_cons, List.flatMap_nil, List.append_nil, repU]; rw [same .filt (by decide)]; omega
    | ept =>
      rw [total_eq, total_eq]
      simp only [addUnknown, List.flatMap_append, List.count_append, List.flatMap_cons, List.flatMap_nil, List.append_nil, repE]
      rw [hh, ha rfl]
      omega

/-! The pending lists never hold a name that is registered. -/

/-- every name in the pending lists satisfies the condition for its kind, and everyone who waits for an endpoint is registered -/
structure Cl (b : Broker) (ok : Want → IName → Prop) : Prop where
  pubs : ∀ p ∈ b.uPubs, ok .pub p.1
  inps : ∀ p ∈ b.uInps, ok .inp p.1
  epts : ∀ p ∈ b.uEpts, ok .ept p.1
  filts : ∀ p ∈ b.uFilts, ok .filt p.1
  links : ∀ p ∈ b.links, ok .pub p.1
  eptLinks : ∀ p ∈ b.eptLinks, ok .ept p.1
  srcs : ∀ p ∈ b.srcFilts, ok .filt p.1
  dsts : ∀ p ∈ b.dstFilts, ok .filt p.1
  known : ∀ p ∈ b.uEpts, ∃ f, b.handles.findHandle p.2.1 = some f
  quiet : b.operating = false
  fine : b.ub = false

theorem addReconnectable_cl {b : Broker} {ok} (c : Cl b ok) (w n s fl) : Cl (b.addReconnectable w n s fl) ok := by
  unfold addReconnectable
  split
  · cases w <;> exact ⟨c.pubs, c.inps, c.epts, c.filts, c.links, c.eptLinks, c.srcs, c.dsts, c.known, c.quiet, c.fine⟩
  · exact c

theorem send_cl {b : Broker} {ok} (c : Cl b ok) (ms : List CMsg) : Cl (b.send ms) ok :=
  ⟨c.pubs, c.inps, c.epts, c.filts, c.links, c.eptLinks, c.srcs, c.dsts, c.known, c.quiet, c.fine⟩

theorem mem_snoc {α : Type} {l : List α} {x y : α} (h : y ∈ l ++ [x]) : y ∈ l ∨ y = x := by
  simpa using h

theorem request_cl {b : Broker} {ok} (c : Cl b ok) (w n s fl i) (h1 : b.table w n = none → ok w n)
    (h2 : w = .ept → ∃ f, b.handles.findHandle s = some f) : Cl (b.request w n s fl i) ok := by
  have c' := addReconnectable_cl c w n s fl
  have hh : (b.addReconnectable w n s fl).handles = b.handles := by simp
  unfold request
  simp only
  split
  · exact send_cl c' _
  · rename_i hn
    rw [hh] at hn
    have hok := h1 hn
    generalize b.addReconnectable w n s fl = b' at c' hh
    cases w with
    | pub => exact ⟨fun p hp => (mem_snoc hp).elim (c'.pubs p) (fun e => by rw [e]; exact hok), c'.inps, c'.epts, c'.filts, c'.links, c'.eptLinks, c'.srcs, c'.dsts, c'.known, c'.quiet, c'.fine⟩
    | inp => exact ⟨c'.pubs, fun p hp => (mem_snoc hp).elim (c'.inps p) (fun e => by rw [e]; exact hok), c'.epts, c'.filts, c'.links, c'.eptLinks, c'.srcs, c'.dsts, c'.known, c'.quiet, c'.fine⟩
    | filt => exact ⟨c'.pubs, c'.inps, c'.epts, fun p hp => (mem_snoc hp).elim (c'.filts p) (fun e => by rw [e]; exact hok), c'.links, c'.eptLinks, c'.srcs, c'.dsts, c'.known, c'.quiet, c'.fine⟩
    | ept => exact ⟨c'.pubs, c'.inps, fun p hp => (mem_snoc hp).elim (c'.epts p) (fun e => by rw [e]; exact hok), c'.filts, c'.links, c'.eptLinks, c'.srcs, c'.dsts,
        fun p hp => (mem_snoc hp).elim (c'.known p) (fun e => by rw [e]; show ∃ f, b'.handles.findHandle s = some f; rw [hh]; exact h2 rfl), c'.quiet, c'.fine⟩

/-- a list of requests, one per name -/
def requests (b : Broker) (w : Want) (src : GHandle) (fl : BitVec 16) (isEpt : Bool) (ts : List IName) : Broker :=
  ts.foldl (fun b t => b.request w t src fl isEpt) b

@[simp] theorem requests_handles (b : Broker) (w src fl i ts) : (requests b w src fl i ts).handles = b.handles := by
  unfold requests
  induction ts generalizing b with
  | nil => rfl
  | cons t ts ih => rw [List.foldl_cons, ih]; simp

theorem requests_total (F : Registry) (ts : List IName) (b : Broker) (w : Want) (src : GHandle) (fl : BitVec 16) (isEpt : Bool)
    (hF : Knows F b) (hs : cloneOk b w src fl isEpt) (ha : w = .ept → asksFilter b.handles src = !isEpt) (e : Ev) :
    total F (requests b w src fl isEpt ts) e = total F b e +
      (ts.flatMap fun t => report F (.need w t src (fl.getLsbD 1) (fl.getLsbD 9) (!isEpt))).count e := by
  unfold requests
  induction ts generalizing b with
  | nil => simp
  | cons t ts ih =>
    rw [List.foldl_cons, ih]
    · rw [request_total F b w t src fl isEpt hF hs ha, List.flatMap_cons, List.count_append]; omega
    · intro w' n r h; exact hF w' n r (by unfold table at h; rw [request_handles] at h; exact h)
    · intro h1 h2 f hf; rw [request_handles] at hf; exact hs h1 h2 f hf
    · intro h; rw [request_handles]; exact ha h

theorem requests_cl (ts : List IName) {b : Broker} {ok} (c : Cl b ok) (w src fl i) (h1 : ∀ n, b.table w n = none → ok w n)
    (h2 : w = .ept → ∃ f, b.handles.findHandle src = some f) : Cl (requests b w src fl i ts) ok := by
  unfold requests
  induction ts generalizing b with
  | nil => exact c
  | cons t ts ih =>
    rw [List.foldl_cons]
    apply ih (request_cl c w t src fl i (h1 t) h2)
    · intro n h; exact h1 n (by unfold table at h; rw [request_handles] at h; exact h)
    · rw [request_handles]; exact h2

/-- what a list of requests leaves alone -/
theorem requests_inp_frame (ts : List IName) (b : Broker) (src fl i) :
    (requests b .inp src fl i ts).uPubs = b.uPubs ∧ (requests b .inp src fl i ts).links = b.links := by
  unfold requests
  induction ts generalizing b with
  | nil => exact ⟨rfl, rfl⟩
  | cons t ts ih =>
    rw [List.foldl_cons]
    have : (b.request .inp t src fl i).uPubs = b.uPubs ∧ (b.request .inp t src fl i).links = b.links := by
      unfold request addReconnectable; simp only
      split <;> split <;> exact ⟨rfl, rfl⟩
    have h := ih (b.request .inp t src fl i)
    exact ⟨h.1.trans this.1, h.2.trans this.2⟩

theorem targets_snoc_ne {α : Type} (m : List (IName × α)) (key n : IName) (x : α) (h : n ≠ key) :
    targets (m ++ [(n, x)]) key = targets m key := by
  have : (n == key) = false := by simpa using h
  simp [targets, this]

theorem requests_ept_frame (ts : List IName) (b : Broker) (src fl i) :
    (requests b .ept src fl i ts).eptLinks = b.eptLinks ∧ (requests b .ept src fl i ts).uFilts = b.uFilts ∧
    (requests b .ept src fl i ts).srcFilts = b.srcFilts ∧ (requests b .ept src fl i ts).dstFilts = b.dstFilts ∧
    (∀ key, b.table .ept key ≠ none → targets (requests b .ept src fl i ts).uEpts key = targets b.uEpts key) := by
  unfold requests
  induction ts generalizing b with
  | nil => exact ⟨rfl, rfl, rfl, rfl, fun _ _ => rfl⟩
  | cons t ts ih =>
    rw [List.foldl_cons]
    have : (b.request .ept t src fl i).eptLinks = b.eptLinks ∧ (b.request .ept t src fl i).uFilts = b.uFilts ∧
        (b.request .ept t src fl i).srcFilts = b.srcFilts ∧ (b.request .ept t src fl i).dstFilts = b.dstFilts ∧
        (∀ key, b.table .ept key ≠ none → targets (b.request .ept t src fl i).uEpts key = targets b.uEpts key) := by
      unfold request addReconnectable; simp only
      by_cases hr : Flags.checkFlag fl reconnectable = true
      · simp only [hr, if_true]
        split
        · exact ⟨rfl, rfl, rfl, rfl, fun _ _ => rfl⟩
        · rename_i hn
          refine ⟨rfl, rfl, rfl, rfl, fun key hk => targets_snoc_ne _ _ _ _ ?_⟩
          rintro rfl; exact hk hn
      · simp only [if_neg hr]
        split
        · exact ⟨rfl, rfl, rfl, rfl, fun _ _ => rfl⟩
        · rename_i hn
          refine ⟨rfl, rfl, rfl, rfl, fun key hk => targets_snoc_ne _ _ _ _ ?_⟩
          rintro rfl; exact hk hn
    obtain ⟨a1, a2, a3, a4, a5⟩ := this
    obtain ⟨b1, b2, b3, b4, b5⟩ := ih (b.request .ept t src fl i)
    refine ⟨b1.trans a1, b2.trans a2, b3.trans a3, b4.trans a4, fun key hk => (b5 key ?_).trans (a5 key hk)⟩
    unfold table; rw [request_handles]; exact hk

/-! Notifications after a registration -/

theorem flatMap_events {α : Type} (ts : List α) (f : α → List CMsg) (g : α → List Ev)
    (h : ∀ t ∈ ts, ∀ e, ((f t).map (fun m => Ev.sent (view m))).count e = (g t).count e) (e : Ev) :
    ((ts.flatMap f).map (fun m => Ev.sent (view m))).count e = (ts.flatMap g).count e := by
  induction ts with
  | nil => rfl
  | cons t ts ih =>
    simp only [List.flatMap_cons, List.map_append, List.count_append]
    rw [h t (by simp), ih (fun t ht => h t (by simp [ht]))]

theorem mem_clear {α : Type} {m : List (IName × α)} {key : IName} {p : IName × α} (h : p ∈ clear m key) : p ∈ m ∧ p.1 ≠ key := by
  obtain ⟨a, b⟩ := List.mem_filter.mp h
  exact ⟨a, by simpa using b⟩

/-- the condition without the name just registered -/
def less (ok : Want → IName → Prop) (w : Want) (key : IName) : Want → IName → Prop := fun w' n => ok w' n ∧ (w' = w → n ≠ key)

theorem findInputTargets_eq {b : Broker} (h : b.operating = false) (r : HInfo) (key : IName) :
    b.findInputTargets r key = { b.send (notifyInps r (targets b.uInps key)) with uInps := clear b.uInps key } := by
  unfold findInputTargets
  simp only
  by_cases he : (targets b.uInps key).isEmpty = true
  · rw [if_pos he, clear_of_targets he]
    simp only [send, h]
    rfl
  · rw [if_neg he]
    simp only [send, h]
    rfl

theorem findInputTargets_total (F : Registry) {b : Broker} {ok} (c : Cl b ok) (r : HInfo) (key : IName) (hF : F .inp key = some r) (e : Ev) :
    total F (b.findInputTargets r key) e = total F b e := by
  rw [findInputTargets_eq c.quiet]
  have h1 := count_split b.uInps key (repU F .inp) e
  have h2 : ((notifyInps r (targets b.uInps key)).map (fun m => Ev.sent (view m))).count e =
      ((targets b.uInps key).flatMap (fun t => repU F .inp (key, t))).count e := by
    apply flatMap_events
    intro t _ e
    simp only [connect, repU, report, hF, joinValue, view, List.map_cons, List.map_nil]
    exact (List.Perm.swap _ _ _).count_eq _
  rw [total_eq, total_eq]
  simp only [send, List.map_append, List.count_append]
  omega

theorem findInputTargets_cl {b : Broker} {ok} (c : Cl b ok) (r : HInfo) (key : IName) :
    Cl (b.findInputTargets r key) (less ok .inp key) ∧ (b.findInputTargets r key).handles = b.handles := by
  rw [findInputTargets_eq c.quiet]
  refine ⟨⟨fun p hp => ⟨c.pubs p hp, by simp⟩, fun p hp => ⟨c.inps p (mem_clear hp).1, fun _ => (mem_clear hp).2⟩,
    fun p hp => ⟨c.epts p hp, by simp⟩, fun p hp => ⟨c.filts p hp, by simp⟩, fun p hp => ⟨c.links p hp, by simp⟩,
    fun p hp => ⟨c.eptLinks p hp, by simp⟩, fun p hp => ⟨c.srcs p hp, by simp⟩, fun p hp => ⟨c.dsts p hp, by simp⟩, c.known, c.quiet, c.fine⟩, rfl⟩

theorem findPublicationTargets_eq {b : Broker} (h : (requests (b.send (notifyPubs r (targets b.uPubs key))) .inp r.gh 0 false (targets b.links key)).operating = false) :
    b.findPublicationTargets r key =
      { requests (b.send (notifyPubs r (targets b.uPubs key))) .inp r.gh 0 false (targets b.links key) with
        uPubs := clear b.uPubs key, links := clear b.links key } := by
  unfold findPublicationTargets
  simp only
  have hf := requests_inp_frame (targets b.links key) (b.send (notifyPubs r (targets b.uPubs key))) r.gh 0 false
  have e : (targets (b.send (notifyPubs r (targets b.uPubs key))).links key).foldl (fun b t => b.request .inp t r.gh 0 false)
      (b.send (notifyPubs r (targets b.uPubs key))) = requests (b.send (notifyPubs r (targets b.uPubs key))) .inp r.gh 0 false (targets b.links key) := rfl
  rw [e]
  generalize requests (b.send (notifyPubs r (targets b.uPubs key))) .inp r.gh 0 false (targets b.links key) = b2 at h hf
  obtain ⟨h1, h2⟩ := hf
  have h1' : b2.uPubs = b.uPubs := h1
  have h2' : b2.links = b.links := h2
  have e2 : (b.send (notifyPubs r (targets b.uPubs key))).links = b.links := rfl
  rw [e2]
  by_cases he : ((targets b.uPubs key).isEmpty && (targets b.links key).isEmpty) = true
  · rw [if_pos he]
    rw [Bool.and_eq_true] at he
    rw [if_neg (by rw [h]; simp), clear_of_targets he.1, clear_of_targets he.2, ← h1', ← h2']
  · rw [if_neg he, if_neg (by rw [show ({ b2 with uPubs := clear b2.uPubs key, links := clear b2.links key } : Broker).operating = b2.operating from rfl, h]; simp), h1', h2']

theorem findPublicationTargets_total (F : Registry) {b : Broker} {ok} (c : Cl b ok) (r : HInfo) (key : IName) (hF : F .pub key = some r)
    (hK : Knows F b) (e : Ev) : total F (b.findPublicationTargets r key) e = total F b e := by
  have c2 := requests_cl (ok := fun _ _ => True) (targets b.links key)
    (⟨by simp, by simp, by simp, by simp, by simp, by simp, by simp, by simp, c.known, c.quiet, c.fine⟩ :
      Cl (b.send (notifyPubs r (targets b.uPubs key))) (fun _ _ => True)) .inp r.gh 0 false (by simp) (by simp)
  rw [findPublicationTargets_eq c2.quiet]
  have t2 := requests_total F (targets b.links key) (b.send (notifyPubs r (targets b.uPubs key))) .inp r.gh 0 false hK
    (fun h => by cases h) (fun h => by cases h) e
  rw [total_send] at t2
  obtain ⟨f1, f2⟩ := requests_inp_frame (targets b.links key) (b.send (notifyPubs r (targets b.uPubs key))) r.gh 0 false
  have f1' : (requests (b.send (notifyPubs r (targets b.uPubs key))) .inp r.gh 0 false (targets b.links key)).uPubs = b.uPubs := f1
  have f2' : (requests (b.send (notifyPubs r (targets b.uPubs key))) .inp r.gh 0 false (targets b.links key)).links = b.links := f2
  generalize requests (b.send (notifyPubs r (targets b.uPubs key))) .inp r.gh 0 false (targets b.links key) = b2 at t2 f1' f2' c2
  have h2 : ((notifyPubs r (targets b.uPubs key)).map (fun m => Ev.sent (view m))).count e =
      ((targets b.uPubs key).flatMap (fun t => repU F .pub (key, t))).count e := by
    apply flatMap_events
    intro t _ e
    simp only [connect, repU, report, hF, joinValue, view, List.map_cons, List.map_nil]
  have h3 : ((targets b.links key).flatMap fun t => report F (.need .inp t r.gh ((0 : BitVec 16).getLsbD 1) ((0 : BitVec 16).getLsbD 9) (!false))) =
      (targets b.links key).flatMap (fun t => report F (.data key t)) := by
    congr 1
    funext t
    simp only [report, hF]
    cases F .inp t <;> rfl
  rw [h3] at t2
  have s1 := count_split b.uPubs key (repU F .pub) e
  have s2 := count_split b.links key (fun p => report F (.data p.1 p.2)) e
  rw [total_eq] at t2 ⊢
  rw [f1', f2'] at t2
  simp only
  simp only [] at s2
  omega

theorem findPublicationTargets_cl {b : Broker} {ok} (c : Cl b ok) (r : HInfo) (key : IName) (h : ∀ n, b.table .inp n = none → ok .inp n) :
    Cl (b.findPublicationTargets r key) (less ok .pub key) ∧ (b.findPublicationTargets r key).handles = b.handles := by
  have c2 := requests_cl (targets b.links key) (send_cl c (notifyPubs r (targets b.uPubs key))) .inp r.gh 0 false h (by simp)
  rw [findPublicationTargets_eq c2.quiet]
  refine ⟨⟨fun p hp => ⟨c.pubs p (mem_clear hp).1, fun _ => (mem_clear hp).2⟩, fun p hp => ⟨c2.inps p hp, by simp⟩,
    fun p hp => ⟨c2.epts p hp, by simp⟩, fun p hp => ⟨c2.filts p hp, by simp⟩, fun p hp => ⟨c.links p (mem_clear hp).1, fun _ => (mem_clear hp).2⟩,
    fun p hp => ⟨c2.eptLinks p hp, by simp⟩, fun p hp => ⟨c2.srcs p hp, by simp⟩, fun p hp => ⟨c2.dsts p hp, by simp⟩, c2.known, c2.quiet, c2.fine⟩, ?_⟩
  simp [send]

/-- identifiers found are the identifiers asked for -/
def Own (b : Broker) : Prop := ∀ g f, b.handles.findHandle g = some f → f.gh = g

/-- the messages to one interface waiting for an endpoint -/
def eptMsgs (hm : HM) (r : HInfo) (t : GHandle × BitVec 16) : List CMsg :=
  match hm.findHandle t.1 with
  | none => []
  | some f =>
    if f.kind ≠ .filter then connect r.gh t.2 f.gh (Flags.toggleFlag t.2 destTarget) .addEndpoint .addEndpoint
    else connect r.gh t.2 f.gh t.2 .addEndpoint .addFilter

theorem notifyEpts_fold (r : HInfo) (ts : List (GHandle × BitVec 16)) (b : Broker) (h : ∀ t ∈ ts, ∃ f, b.handles.findHandle t.1 = some f) :
    ts.foldl (notifyEpts r) b = b.send (ts.flatMap (eptMsgs b.handles r)) := by
  induction ts generalizing b with
  | nil => simp [send]
  | cons t ts ih =>
    obtain ⟨f, hf⟩ := h t (by simp)
    have : notifyEpts r b t = b.send (eptMsgs b.handles r t) := by
      unfold notifyEpts eptMsgs
      rw [hf]
      simp only
      split <;> rfl
    rw [List.foldl_cons, this, ih (b.send (eptMsgs b.handles r t)) (fun t ht => h t (by simp [ht]))]
    simp [send, List.append_assoc]

theorem eptMsgs_events (F : Registry) (b : Broker) (r : HInfo) (key : IName) (hF : F .ept key = some r) (ho : Own b)
    (t : GHandle × BitVec 16) (hk : ∃ f, b.handles.findHandle t.1 = some f) (e : Ev) :
    ((eptMsgs b.handles r t).map (fun m => Ev.sent (view m))).count e = (repE F b.handles (key, t)).count e := by
  obtain ⟨f, hf⟩ := hk
  have hg := ho _ _ hf
  by_cases hfil : f.kind = .filter
  · have ha : asksFilter b.handles t.1 = true := by unfold asksFilter; rw [hf]; simpa using hfil
    have hm : eptMsgs b.handles r t = connect r.gh t.2 f.gh t.2 .addEndpoint .addFilter := by
      unfold eptMsgs; rw [hf]; simp [hfil]
    rw [hm]
    simp only [repE, report, hF, ha, joinFilter, connect, view, List.map_cons, List.map_nil, hg]
    exact (List.Perm.swap _ _ _).count_eq _
  · have ha : asksFilter b.handles t.1 = false := by unfold asksFilter; rw [hf]; simpa using hfil
    have hm : eptMsgs b.handles r t = connect r.gh t.2 f.gh (Flags.toggleFlag t.2 destTarget) .addEndpoint .addEndpoint := by
      unfold eptMsgs; rw [hf]; simp [hfil]
    have ht : (Flags.toggleFlag t.2 destTarget).getLsbD 1 = !(t.2.getLsbD 1) := by
      rw [Flags.C28_toggle_flag _ _ _ (by decide), if_pos (show 1 = destTarget from rfl)]
    rw [hm]
    simp only [repE, report, hF, ha, joinEndpoints, connect, view, List.map_cons, List.map_nil, hg, ht]
    cases t.2.getLsbD 1 with
    | true => rfl
    | false => exact (List.Perm.swap _ _ _).count_eq _

theorem known_targets {b : Broker} {ok} (c : Cl b ok) (key : IName) : ∀ t ∈ targets b.uEpts key, ∃ f, b.handles.findHandle t.1 = some f := by
  intro t ht
  obtain ⟨p, hp, rfl⟩ := List.mem_map.mp ht
  exact c.known p (List.mem_filter.mp hp).1

theorem clear_congr {m m' : UMap} {key : IName} (e : Ev) (g : IName × GHandle × BitVec 16 → List Ev) (h : targets m' key = targets m key) :
    (m'.flatMap g).count e = ((targets m key).flatMap (fun t => g (key, t))).count e + ((clear m' key).flatMap g).count e := by
  rw [count_split m' key g e, h]

/-- the endpoint notifications up to the clearing -/
def eptStage (b : Broker) (r : HInfo) (key : IName) : Broker :=
  requests (b.send ((targets b.uEpts key).flatMap (eptMsgs b.handles r))) .ept r.gh (Flags.setFlag 0 destTarget) true (targets b.eptLinks key)

theorem findEndpointTargets_eq {b : Broker} {ok} (c : Cl b ok) (r : HInfo) (key : IName) (ht : b.table .ept key ≠ none)
    (h : (eptStage b r key).operating = false) :
    b.findEndpointTargets r key =
      { eptStage b r key with uEpts := clear (eptStage b r key).uEpts key, eptLinks := clear b.eptLinks key } := by
  obtain ⟨f1, _, _, _, f5⟩ := requests_ept_frame (targets b.eptLinks key)
    (b.send ((targets b.uEpts key).flatMap (eptMsgs b.handles r))) r.gh (Flags.setFlag 0 destTarget) true
  have f5' : targets (eptStage b r key).uEpts key = targets b.uEpts key := f5 key ht
  have f1' : (eptStage b r key).eptLinks = b.eptLinks := f1
  unfold findEndpointTargets
  simp only
  rw [notifyEpts_fold r _ b (known_targets c key)]
  have e : (targets (b.send ((targets b.uEpts key).flatMap (eptMsgs b.handles r))).eptLinks key).foldl
      (fun b t => b.request .ept t r.gh (Flags.setFlag 0 destTarget) true)
      (b.send ((targets b.uEpts key).flatMap (eptMsgs b.handles r))) = eptStage b r key := rfl
  rw [e]
  generalize eptStage b r key = b2 at h f1' f5'
  have e2 : (b.send ((targets b.uEpts key).flatMap (eptMsgs b.handles r))).eptLinks = b.eptLinks := rfl
  rw [e2]
  by_cases he : ((targets b.uEpts key).isEmpty && (targets b.eptLinks key).isEmpty) = true
  · rw [if_pos he]
    rw [Bool.and_eq_true] at he
    rw [if_neg (by rw [h]; simp), clear_of_targets (m := b2.uEpts) (by rw [f5']; exact he.1), clear_of_targets he.2, ← f1']
  · rw [if_neg he, if_neg (by rw [show ({ b2 with uEpts := clear b2.uEpts key, eptLinks := clear b2.eptLinks key } : Broker).operating = b2.operating from rfl, h]; simp), f1']

theorem setFlag0 : (Flags.setFlag 0 destTarget).getLsbD 1 = true ∧ (Flags.setFlag 0 destTarget).getLsbD 9 = false := by decide

theorem findEndpointTargets_total (F : Registry) {b : Broker} {ok} (c : Cl b ok) (r : HInfo) (key : IName) (hF : F .ept key = some r)
    (ht : b.table .ept key ≠ none) (hK : Knows F b) (ho : Own b) (hr : b.handles.findHandle r.gh = some r) (hk : r.kind ≠ .filter) (e : Ev) :
    total F (b.findEndpointTargets r key) e = total F b e := by
  have ha : asksFilter b.handles r.gh = false := by unfold asksFilter; rw [hr]; simpa using hk
  have c2 : Cl (eptStage b r key) (fun _ _ => True) := requests_cl (ok := fun _ _ => True) (targets b.eptLinks key)
    (⟨by simp, by simp, by simp, by simp, by simp, by simp, by simp, by simp, c.known, c.quiet, c.fine⟩ :
      Cl (b.send ((targets b.uEpts key).flatMap (eptMsgs b.handles r))) (fun _ _ => True)) .ept r.gh (Flags.setFlag 0 destTarget) true (by simp) (fun _ => ⟨r, hr⟩)
  rw [findEndpointTargets_eq c r key ht c2.quiet]
  have t2 : total F (eptStage b r key) e = _ := requests_total F (targets b.eptLinks key)
    (b.send ((targets b.uEpts key).flatMap (eptMsgs b.handles r))) .ept r.gh (Flags.setFlag 0 destTarget) true hK
    (fun _ h => by cases h) (fun _ => ha) e
  rw [total_send] at t2
  obtain ⟨f1, _, _, _, f5⟩ := requests_ept_frame (targets b.eptLinks key)
    (b.send ((targets b.uEpts key).flatMap (eptMsgs b.handles r))) r.gh (Flags.setFlag 0 destTarget) true
  have f5' : targets (eptStage b r key).uEpts key = targets b.uEpts key := f5 key ht
  have f1' : (eptStage b r key).eptLinks = b.eptLinks := f1
  have fh : (eptStage b r key).handles = b.handles := by unfold eptStage; simp [send]
  generalize eptStage b r key = b2 at t2 f1' f5' fh
  have h2 : (((targets b.uEpts key).flatMap (eptMsgs b.handles r)).map (fun m => Ev.sent (view m))).count e =
      ((targets b.uEpts key).flatMap (fun t => repE F b.handles (key, t))).count e := by
    apply flatMap_events
    intro t ht e
    exact eptMsgs_events F b r key hF ho t (known_targets c key t ht) e
  have h3 : ((targets b.eptLinks key).flatMap fun t => report F (.need .ept t r.gh ((Flags.setFlag 0 destTarget).getLsbD 1) ((Flags.setFlag 0 destTarget).getLsbD 9) (!true))) =
      (targets b.eptLinks key).flatMap (fun t => report F (.endpoints key t)) := by
    congr 1
    funext t
    simp only [report, hF, setFlag0.1, setFlag0.2, Bool.not_true]
    cases F .ept t <;> rfl
  rw [h3] at t2
  have s1 := clear_congr e (repE F b.handles) f5'
  have s2 := count_split b.eptLinks key (fun p => report F (.endpoints p.1 p.2)) e
  rw [total_eq] at t2 ⊢
  rw [f1', fh] at t2
  simp only
  rw [fh]
  simp only [] at s2
  omega

theorem findEndpointTargets_cl {b : Broker} {ok} (c : Cl b ok) (r : HInfo) (key : IName) (ht : b.table .ept key ≠ none)
    (h : ∀ n, b.table .ept n = none → ok .ept n) (hr : b.handles.findHandle r.gh = some r) :
    Cl (b.findEndpointTargets r key) (less ok .ept key) ∧ (b.findEndpointTargets r key).handles = b.handles := by
  have c2 : Cl (eptStage b r key) ok := requests_cl (targets b.eptLinks key)
    (send_cl c ((targets b.uEpts key).flatMap (eptMsgs b.handles r))) .ept r.gh (Flags.setFlag 0 destTarget) true h (fun _ => ⟨r, hr⟩)
  rw [findEndpointTargets_eq c r key ht c2.quiet]
  refine ⟨⟨fun p hp => ⟨c2.pubs p hp, by simp⟩, fun p hp => ⟨c2.inps p hp, by simp⟩,
    fun p hp => ⟨c2.epts p (mem_clear hp).1, fun _ => (mem_clear hp).2⟩, fun p hp => ⟨c2.filts p hp, by simp⟩, fun p hp => ⟨c2.links p hp, by simp⟩,
    fun p hp => ⟨c.eptLinks p (mem_clear hp).1, fun _ => (mem_clear hp).2⟩, fun p hp => ⟨c2.srcs p hp, by simp⟩, fun p hp => ⟨c2.dsts p hp, by simp⟩,
    fun p hp => c2.known p (mem_clear hp).1, c2.quiet, c2.fine⟩, ?_⟩
  show (eptStage b r key).handles = b.handles
  unfold eptStage; simp [send]

/-- the filter notifications up to the clearing -/
def filtStage (b : Broker) (r : HInfo) (key : IName) : Broker :=
  requests (requests (b.send (notifyFilts r (targets b.uFilts key))) .ept r.gh (filtLinkFlags r true) false (targets b.dstFilts key))
    .ept r.gh (filtLinkFlags r false) false (targets b.srcFilts key)

theorem filtStage_frame (b : Broker) (r : HInfo) (key : IName) :
    (filtStage b r key).uFilts = b.uFilts ∧ (filtStage b r key).srcFilts = b.srcFilts ∧ (filtStage b r key).dstFilts = b.dstFilts ∧
    (filtStage b r key).handles = b.handles := by
  obtain ⟨_, a2, a3, a4, _⟩ := requests_ept_frame (targets b.dstFilts key) (b.send (notifyFilts r (targets b.uFilts key))) r.gh (filtLinkFlags r true) false
  obtain ⟨_, b2, b3, b4, _⟩ := requests_ept_frame (targets b.srcFilts key)
    (requests (b.send (notifyFilts r (targets b.uFilts key))) .ept r.gh (filtLinkFlags r true) false (targets b.dstFilts key)) r.gh (filtLinkFlags r false) false
  refine ⟨b2.trans a2, b3.trans a3, b4.trans a4, ?_⟩
  unfold filtStage; simp [send]

theorem findFilterTargets_eq {b : Broker} (r : HInfo) (key : IName) (h : (filtStage b r key).operating = false) :
    b.findFilterTargets r key =
      { filtStage b r key with uFilts := clear b.uFilts key, srcFilts := clear b.srcFilts key, dstFilts := clear b.dstFilts key } := by
  obtain ⟨f1, f2, f3, _⟩ := filtStage_frame b r key
  unfold findFilterTargets
  simp only
  have hs : (requests (b.send (notifyFilts r (targets b.uFilts key))) .ept r.gh (filtLinkFlags r true) false (targets b.dstFilts key)).srcFilts = b.srcFilts :=
    (requests_ept_frame (targets b.dstFilts key) (b.send (notifyFilts r (targets b.uFilts key))) r.gh (filtLinkFlags r true) false).2.2.1
  have e1 : (targets (b.send (notifyFilts r (targets b.uFilts key))).dstFilts key).foldl
      (fun b t => b.request .ept t r.gh (filtLinkFlags r true) false) (b.send (notifyFilts r (targets b.uFilts key))) =
      requests (b.send (notifyFilts r (targets b.uFilts key))) .ept r.gh (filtLinkFlags r true) false (targets b.dstFilts key) := rfl
  rw [e1, hs]
  have e2 : (targets b.srcFilts key).foldl (fun b t => b.request .ept t r.gh (filtLinkFlags r false) false)
      (requests (b.send (notifyFilts r (targets b.uFilts key))) .ept r.gh (filtLinkFlags r true) false (targets b.dstFilts key)) = filtStage b r key := rfl
  rw [e2]
  generalize filtStage b r key = b2 at h f1 f2 f3
  have e3 : (b.send (notifyFilts r (targets b.uFilts key))).dstFilts = b.dstFilts := rfl
  rw [e3]
  by_cases he : ((targets b.uFilts key).isEmpty && (targets b.dstFilts key).isEmpty && (targets b.srcFilts key).isEmpty) = true
  · rw [if_pos he]
    simp only [Bool.and_eq_true] at he
    rw [if_neg (by rw [h]; simp), clear_of_targets he.1.1, clear_of_targets he.1.2, clear_of_targets he.2, ← f1, ← f2, ← f3]
  · rw [if_neg he, if_neg (by rw [show ({ b2 with uFilts := clear b2.uFilts key, srcFilts := clear b2.srcFilts key, dstFilts := clear b2.dstFilts key } : Broker).operating = b2.operating from rfl, h]; simp), f1, f2, f3]

theorem filtLinkFlags_bits (r : HInfo) (dest : Bool) (h : r.flags.getLsbD 1 = false) :
    (filtLinkFlags r dest).getLsbD 1 = dest ∧ (filtLinkFlags r dest).getLsbD 9 = r.flags.getLsbD 9 := by
  unfold filtLinkFlags
  simp only
  rw [Flags.C28_check _ _ (by decide)]
  have key : (if dest then Flags.setFlag r.flags destTarget else r.flags).getLsbD 1 = dest ∧
      (if dest then Flags.setFlag r.flags destTarget else r.flags).getLsbD 9 = r.flags.getLsbD 9 := by
    cases dest with
    | true =>
      rw [if_pos rfl, Flags.C28_set _ _ _ (by decide), Flags.C28_set _ _ _ (by decide), if_pos (show 1 = destTarget from rfl),
        if_neg (show ¬ 9 = destTarget by decide)]
      exact ⟨rfl, rfl⟩
    | false => rw [if_neg (by simp)]; exact ⟨h, rfl⟩
  generalize (if dest then Flags.setFlag r.flags destTarget else r.flags) = fl at key
  by_cases hc : r.flags.getLsbD cloneFlag = true
  · rw [if_pos hc, Flags.C28_set _ _ _ (by decide), Flags.C28_set _ _ _ (by decide), if_neg (show ¬ 1 = cloneFlag by decide),
      if_pos (show 9 = cloneFlag from rfl)]
    exact ⟨key.1, (show r.flags.getLsbD 9 = true from hc).symm⟩
  · rw [if_neg hc]; exact key

theorem clone_or (w x : BitVec 16) (j : Nat) (hj : j < 16) :
    (if Flags.checkFlag x cloneFlag = true then w ||| Flags.make1 cloneFlag else w).getLsbD j =
      if j = 9 then (w.getLsbD 9 || x.getLsbD 9) else w.getLsbD j := by
  rw [Flags.C28_check _ _ (by decide)]
  have hm : (Flags.make1 cloneFlag).getLsbD j = decide (j = 9) := by
    unfold Flags.make1; rw [Flags.mask_bit _ _ hj]; rfl
  by_cases hc : x.getLsbD cloneFlag = true
  · have hc' : x.getLsbD 9 = true := hc
    rw [if_pos hc, BitVec.getLsbD_or, hm, hc']
    by_cases e : j = 9
    · subst e; rw [if_pos rfl]; simp
    · rw [if_neg e, decide_eq_false e, Bool.or_false]
  · have hc' : x.getLsbD 9 = false := Bool.eq_false_iff.mpr hc
    rw [if_neg hc, hc']
    by_cases e : j = 9
    · subst e; rw [if_pos rfl, Bool.or_false]
    · rw [if_neg e]

theorem findFilterTargets_total (F : Registry) {b : Broker} {ok} (c : Cl b ok) (r : HInfo) (key : IName) (hF : F .filt key = some r)
    (hK : Knows F b) (hr : b.handles.findHandle r.gh = some r) (hk : r.kind = .filter) (hd : r.flags.getLsbD 1 = false) (e : Ev) :
    total F (b.findFilterTargets r key) e = total F b e := by
  have ha : asksFilter b.handles r.gh = true := by unfold asksFilter; rw [hr]; simpa using hk
  have c1 := requests_cl (ok := fun _ _ => True) (targets b.dstFilts key)
    (⟨by simp, by simp, by simp, by simp, by simp, by simp, by simp, by simp, c.known, c.quiet, c.fine⟩ :
      Cl (b.send (notifyFilts r (targets b.uFilts key))) (fun _ _ => True)) .ept r.gh (filtLinkFlags r true) false (by simp) (fun _ => ⟨r, hr⟩)
  have c2 : Cl (filtStage b r key) (fun _ _ => True) := requests_cl (targets b.srcFilts key) c1 .ept r.gh (filtLinkFlags r false) false (by simp)
    (fun _ => ⟨r, by rw [requests_handles]; exact hr⟩)
  rw [findFilterTargets_eq r key c2.quiet]
  have cl : ∀ dest b', b'.handles = b.handles → cloneOk b' .ept r.gh (filtLinkFlags r dest) false := by
    intro dest b' hb _ _ f hf h9
    rw [hb, hr] at hf
    cases hf
    rw [(filtLinkFlags_bits r dest hd).2]; exact h9
  have t1 := requests_total F (targets b.dstFilts key) (b.send (notifyFilts r (targets b.uFilts key))) .ept r.gh (filtLinkFlags r true) false hK
    (cl true _ rfl) (fun _ => ha) e
  have hh : (requests (b.send (notifyFilts r (targets b.uFilts key))) .ept r.gh (filtLinkFlags r true) false (targets b.dstFilts key)).handles = b.handles := by
    rw [requests_handles]; rfl
  have t2 : total F (filtStage b r key) e = _ := requests_total F (targets b.srcFilts key) _ .ept r.gh (filtLinkFlags r false) false
    (fun w n r' h => hK w n r' (by unfold table at h; rw [hh] at h; exact h)) (cl false _ hh) (fun _ => by rw [hh]; exact ha) e
  rw [t1, total_send] at t2
  obtain ⟨f1, f2, f3, f4⟩ := filtStage_frame b r key
  generalize filtStage b r key = b2 at t2 f1 f2 f3 f4 c2
  have h2 : ((notifyFilts r (targets b.uFilts key)).map (fun m => Ev.sent (view m))).count e =
      ((targets b.uFilts key).flatMap (fun t => repU F .filt (key, t))).count e := by
    apply flatMap_events
    intro t _ e
    simp only [connect, repU, report, hF, joinFilter, view, List.map_cons, List.map_nil, clone_or t.2 r.flags 1 (by decide),
      clone_or t.2 r.flags 9 (by decide)]
    rfl
  have h3 : ∀ dest ts, (List.flatMap (fun t => report F (.need .ept t r.gh ((filtLinkFlags r dest).getLsbD 1) ((filtLinkFlags r dest).getLsbD 9) (!false))) ts) =
      List.flatMap (fun t => report F (.filt key t dest)) ts := by
    intro dest ts
    congr 1
    funext t
    rw [(filtLinkFlags_bits r dest hd).1, (filtLinkFlags_bits r dest hd).2]
    simp only [report, hF, Bool.not_false]
    cases F .ept t <;> rfl
  rw [h3, h3] at t2
  have s1 := count_split b.uFilts key (repU F .filt) e
  have s2 := count_split b.srcFilts key (fun p => report F (.filt p.1 p.2 false)) e
  have s3 := count_split b.dstFilts key (fun p => report F (.filt p.1 p.2 true)) e
  rw [total_eq] at t2 ⊢
  rw [f1, f2, f3] at t2
  simp only
  simp only [] at s2 s3
  omega

theorem findFilterTargets_cl {b : Broker} {ok} (c : Cl b ok) (r : HInfo) (key : IName)
    (h : ∀ n, b.table .ept n = none → ok .ept n) (hr : b.handles.findHandle r.gh = some r) :
    Cl (b.findFilterTargets r key) (less ok .filt key) ∧ (b.findFilterTargets r key).handles = b.handles := by
  have c1 := requests_cl (targets b.dstFilts key) (send_cl c (notifyFilts r (targets b.uFilts key))) .ept r.gh (filtLinkFlags r true) false h (fun _ => ⟨r, hr⟩)
  have c2 : Cl (filtStage b r key) ok := requests_cl (targets b.srcFilts key) c1 .ept r.gh (filtLinkFlags r false) false
    (fun n hn => h n (by unfold table at hn; rw [requests_handles] at hn; exact hn)) (fun _ => ⟨r, by rw [requests_handles]; exact hr⟩)
  rw [findFilterTargets_eq r key c2.quiet]
  refine ⟨⟨fun p hp => ⟨c2.pubs p hp, by simp⟩, fun p hp => ⟨c2.inps p hp, by simp⟩,
    fun p hp => ⟨c2.epts p hp, by simp⟩, fun p hp => ⟨c.filts p (mem_clear hp).1, fun _ => (mem_clear hp).2⟩, fun p hp => ⟨c2.links p hp, by simp⟩,
    fun p hp => ⟨c2.eptLinks p hp, by simp⟩, fun p hp => ⟨c.srcs p (mem_clear hp).1, fun _ => (mem_clear hp).2⟩,
    fun p hp => ⟨c.dsts p (mem_clear hp).1, fun _ => (mem_clear hp).2⟩, c2.known, c2.quiet, c2.fine⟩, ?_⟩
  exact (filtStage_frame b r key).2.2.2

/-! ### The invariant -/

theorem Cl.mono {b : Broker} {ok ok'} (c : Cl b ok) (h : ∀ w n, ok w n → ok' w n) : Cl b ok' :=
  ⟨fun p hp => h _ _ (c.pubs p hp), fun p hp => h _ _ (c.inps p hp), fun p hp => h _ _ (c.epts p hp), fun p hp => h _ _ (c.filts p hp),
   fun p hp => h _ _ (c.links p hp), fun p hp => h _ _ (c.eptLinks p hp), fun p hp => h _ _ (c.srcs p hp), fun p hp => h _ _ (c.dsts p hp),
   c.known, c.quiet, c.fine⟩

theorem slotsOf_serves (w : Want) (k : IfKind) (h : HM.slotFor w.kind ∈ HM.slotsOf k) : w.kind ∈ serves k := by
  revert h; cases w <;> cases k <;> decide

/-- the table in terms of the interfaces registered -/
theorem table_iff {hm : HM} {R : List Entry} (h : Hist hm R [] 0) (hk : ∀ e ∈ R, e.info.key ≠ []) (w : Want) (n : IName) (r : HInfo) :
    hm.byName n w.kind = some r ↔ ∃ e ∈ R, e.info = r ∧ e.info.key = n ∧ w.kind ∈ serves e.info.kind := by
  constructor
  · intro hr
    obtain ⟨e, he, h1, h2, h3⟩ := HM.C26_exact h n w.kind r hr
    exact ⟨e, he, h1, h2.eq_of_nil, slotsOf_serves w _ h3⟩
  · rintro ⟨e, he, rfl, rfl, h3⟩
    exact HM.C26_lookup h e he (hk e he) w.kind h3

theorem registry_eq {hm : HM} {R : List Entry} (h : Hist hm R [] 0) (hk : ∀ e ∈ R, e.info.key ≠ []) (w : Want) (n : IName) :
    registry R w n = hm.byName n w.kind := by
  unfold registry
  cases hf : R.find? (fun e => decide (e.info.key = n ∧ w.kind ∈ serves e.info.kind)) with
  | some e =>
    have h1 := List.find?_some hf
    have h2 := List.mem_of_find?_eq_some hf
    have h3 : e.info.key = n ∧ w.kind ∈ serves e.info.kind := by simpa using h1
    rw [Option.map_some]
    exact ((table_iff h hk w n e.info).mpr ⟨e, h2, rfl, h3⟩).symm
  | none =>
    rw [Option.map_none]
    cases hb : hm.byName n w.kind with
    | none => rfl
    | some r =>
      obtain ⟨e, he, h1, h2, h3⟩ := (table_iff h hk w n r).mp hb
      have := List.find?_eq_none.mp hf e he
      simp [h2, h3] at this

theorem generateName_ne (hm : HM) (k : IfKind) : hm.generateName k ≠ [] := by
  unfold HM.generateName
  cases k <;> exact List.append_ne_nil_of_left_ne_nil (by decide) _

structure BInv (b : Broker) (R : List Entry) (W : List Wish) : Prop where
  hist : Hist b.handles R [] 0
  keys : ∀ e ∈ R, e.info.key ≠ []
  cl : Cl b (fun w n => b.table w n = none)
  tot : ∀ F, Knows F b → ∀ e, total F b e = (W.flatMap (report F)).count e

theorem Hist.own {b : Broker} {R : List Entry} (h : Hist b.handles R [] 0) : Own b := by
  intro g f hf
  obtain ⟨e, _, h1, h2⟩ := (HM.C26_find h g f).mp hf
  rw [← h2]; exact h1

theorem count_snoc (W : List Wish) (x : Wish) (F : Registry) (e : Ev) :
    ((W ++ [x]).flatMap (report F)).count e = (W.flatMap (report F)).count e + (report F x).count e := by
  simp

/-- the state after the table has the new interface, before the notifications -/
theorem register_ready {b : Broker} {R : List Entry} {hm' : HM} {x : Entry} (i : Hist b.handles R [] 0) (hk : ∀ e ∈ R, e.info.key ≠ [])
    (c : Cl b (fun w n => b.table w n = none)) (h' : Hist hm' (x :: R) [] 0) (hx : x.info.key ≠ []) :
    let b' : Broker := { b with handles := hm' }
    Cl b' (fun w n => b'.table w n = none ∨ (n = x.info.key ∧ w.kind ∈ serves x.info.kind)) ∧ Own b' ∧
    hm'.findHandle x.info.gh = some x.info ∧ (∀ w, w.kind ∈ serves x.info.kind → b'.table w x.info.key = some x.info) ∧
    (∀ F, Knows F b' → Knows F b) ∧ (∀ F e, total F b' e = total F b e) := by
  have hk' : ∀ e ∈ x :: R, e.info.key ≠ [] := by
    intro e he
    rcases List.mem_cons.mp he with rfl | he
    · exact hx
    · exact hk e he
  have step : ∀ w n, b.table w n = none → hm'.byName n w.kind = none ∨ (n = x.info.key ∧ w.kind ∈ serves x.info.kind) := by
    intro w n hn
    cases hb : hm'.byName n w.kind with
    | none => exact Or.inl rfl
    | some r =>
      obtain ⟨e, he, h1, h2, h3⟩ := (table_iff h' hk' w n r).mp hb
      rcases List.mem_cons.mp he with rfl | he
      · exact Or.inr ⟨h2.symm, h3⟩
      · have := (table_iff i hk w n r).mpr ⟨e, he, h1, h2, h3⟩
        unfold table at hn
        rw [hn] at this; cases this
  have find : ∀ g f, b.handles.findHandle g = some f → hm'.findHandle g = some f := by
    intro g f hf
    obtain ⟨e, he, h1, h2⟩ := (HM.C26_find i g f).mp hf
    exact (HM.C26_find h' g f).mpr ⟨e, List.mem_cons_of_mem _ he, h1, h2⟩
  refine ⟨⟨fun p hp => step _ _ (c.pubs p hp), fun p hp => step _ _ (c.inps p hp), fun p hp => step _ _ (c.epts p hp),
    fun p hp => step _ _ (c.filts p hp), fun p hp => step _ _ (c.links p hp), fun p hp => step _ _ (c.eptLinks p hp),
    fun p hp => step _ _ (c.srcs p hp), fun p hp => step _ _ (c.dsts p hp), ?_, c.quiet, c.fine⟩, ?_, ?_, ?_, ?_, ?_⟩
  · intro p hp
    obtain ⟨f, hf⟩ := c.known p hp
    exact ⟨f, find _ _ hf⟩
  · exact Hist.own (b := { b with handles := hm' }) h'
  · exact (HM.C26_find h' _ _).mpr ⟨x, List.mem_cons_self .., rfl, rfl⟩
  · intro w hw
    exact (table_iff h' hk' w _ _).mpr ⟨x, List.mem_cons_self .., rfl, rfl, hw⟩
  · intro F hF w n r hr
    refine hF w n r ?_
    obtain ⟨e, he, h⟩ := (table_iff i hk w n r).mp hr
    exact (table_iff h' hk' w n r).mpr ⟨e, List.mem_cons_of_mem _ he, h⟩
  · intro F e
    have : b.uEpts.flatMap (repE F hm') = b.uEpts.flatMap (repE F b.handles) := by
      rw [List.flatMap_def, List.flatMap_def]
      congr 1
      apply List.map_congr_left
      intro p hp
      obtain ⟨f, hf⟩ := c.known p hp
      unfold repE asksFilter
      rw [hf, find _ _ hf]
    rw [total_eq, total_eq]
    simp only
    rw [this]

/-- the notifications account for everything that waited for the new name -/
theorem notify_ok {b : Broker} (r : HInfo) (c : Cl b (fun w n => b.table w n = none ∨ (n = r.key ∧ w.kind ∈ serves r.kind))) (ho : Own b)
    (hr : b.handles.findHandle r.gh = some r) (ht : ∀ w, w.kind ∈ serves r.kind → b.table w r.key = some r)
    (hd : r.kind = .filter → r.flags.getLsbD 1 = false) :
    Cl (b.notify r) (fun w n => b.table w n = none) ∧ (b.notify r).handles = b.handles ∧
    ∀ F, Knows F b → ∀ e, total F (b.notify r) e = total F b e := by
  have hok : ∀ w n, b.table w n = none → b.table w n = none ∨ (n = r.key ∧ w.kind ∈ serves r.kind) := fun _ _ h => Or.inl h
  have own : ∀ b' : Broker, b'.handles = b.handles → Own b' := by
    intro b' h g f hf; rw [h] at hf; exact ho g f hf
  have knows : ∀ (b' : Broker), b'.handles = b.handles → ∀ F, Knows F b → Knows F b' := by
    intro b' h F hF w n x hx; unfold table at hx; rw [h] at hx; exact hF w n x hx
  have tab : ∀ (b' : Broker), b'.handles = b.handles → ∀ w n, b'.table w n = b.table w n := by
    intro b' h w n; unfold table; rw [h]
  unfold notify
  cases hk : r.kind with
  | publication =>
    rw [hk] at c ht hok
    obtain ⟨c1, h1⟩ := findPublicationTargets_cl c r r.key (fun n hn => Or.inl hn)
    refine ⟨c1.mono ?_, h1, fun F hF e => findPublicationTargets_total F c r r.key (hF _ _ _ (ht .pub (by decide))) hF e⟩
    rintro w n ⟨h | ⟨h, hs⟩, h2⟩
    · exact h
    · cases w <;> simp [serves, Want.kind] at hs
      exact absurd h (h2 rfl)
  | input =>
    rw [hk] at c ht hok
    obtain ⟨c1, h1⟩ := findInputTargets_cl c r r.key
    refine ⟨c1.mono ?_, h1, fun F hF e => findInputTargets_total F c r r.key (hF _ _ _ (ht .inp (by decide))) e⟩
    rintro w n ⟨h | ⟨h, hs⟩, h2⟩
    · exact h
    · cases w <;> simp [serves, Want.kind] at hs
      exact absurd h (h2 rfl)
  | endpoint =>
    rw [hk] at c ht hok
    have hne : b.table .ept r.key ≠ none := by rw [ht .ept (by decide)]; simp
    obtain ⟨c1, h1⟩ := findEndpointTargets_cl c r r.key hne (fun n hn => Or.inl hn) hr
    refine ⟨c1.mono ?_, h1, fun F hF e => findEndpointTargets_total F c r r.key (hF _ _ _ (ht .ept (by decide))) hne hF ho hr (by simp [hk]) e⟩
    rintro w n ⟨h | ⟨h, hs⟩, h2⟩
    · exact h
    · cases w <;> simp [serves, Want.kind] at hs
      exact absurd h (h2 rfl)
  | filter =>
    rw [hk] at c ht hok
    obtain ⟨c1, h1⟩ := findFilterTargets_cl c r r.key (fun n hn => Or.inl hn) hr
    refine ⟨c1.mono ?_, h1, fun F hF e => findFilterTargets_total F c r r.key (hF _ _ _ (ht .filt (by decide))) hF hr hk (hd hk) e⟩
    rintro w n ⟨h | ⟨h, hs⟩, h2⟩
    · exact h
    · cases w <;> simp [serves, Want.kind] at hs
      exact absurd h (h2 rfl)
  | unknown =>
    rw [hk] at c
    refine ⟨c.mono ?_, rfl, fun F hF e => rfl⟩
    rintro w n (h | ⟨h, hs⟩)
    · exact h
    · cases hs
  | sink =>
    rw [hk] at c ht hok
    simp only
    obtain ⟨c1, h1⟩ := findInputTargets_cl c r r.key
    have hne : (b.findInputTargets r r.key).table .ept r.key ≠ none := by rw [tab _ h1, ht .ept (by decide)]; simp
    obtain ⟨c2, h2⟩ := findEndpointTargets_cl c1 r r.key hne (fun n hn => ⟨Or.inl (by rw [tab _ h1] at hn; exact hn), by simp⟩) (by rw [h1]; exact hr)
    refine ⟨c2.mono ?_, h2.trans h1, fun F hF e => ?_⟩
    · rintro w n ⟨⟨h | ⟨h, hs⟩, k1⟩, k2⟩
      · exact h
      · cases w <;> simp [serves, Want.kind] at hs
        · exact absurd h (k1 rfl)
        · exact absurd h (k2 rfl)
    · rw [findEndpointTargets_total F c1 r r.key (hF _ _ _ (ht .ept (by decide))) hne (knows _ h1 F hF) (own _ h1) (by rw [h1]; exact hr) (by simp [hk]) e,
        findInputTargets_total F c r r.key (hF _ _ _ (ht .inp (by decide))) e]
  | translator =>
    rw [hk] at c ht hok
    simp only
    obtain ⟨c1, h1⟩ := findInputTargets_cl c r r.key
    have hin : ∀ n, (b.findInputTargets r r.key).table .inp n = none → less (fun w n => b.table w n = none ∨ n = r.key ∧ w.kind ∈ serves .translator) .inp r.key .inp n := by
      intro n hn
      rw [tab _ h1] at hn
      refine ⟨Or.inl hn, fun _ e => ?_⟩
      rw [e, ht .inp (by decide)] at hn; cases hn
    obtain ⟨c2, h2⟩ := findPublicationTargets_cl c1 r r.key hin
    have h12 := h2.trans h1
    have hne : ((b.findInputTargets r r.key).findPublicationTargets r r.key).table .ept r.key ≠ none := by rw [tab _ h12, ht .ept (by decide)]; simp
    obtain ⟨c3, h3⟩ := findEndpointTargets_cl c2 r r.key hne
      (fun n hn => ⟨⟨Or.inl (by rw [tab _ h12] at hn; exact hn), by simp⟩, by simp⟩) (by rw [h12]; exact hr)
    refine ⟨c3.mono ?_, h3.trans h12, fun F hF e => ?_⟩
    · rintro w n ⟨⟨⟨h | ⟨h, hs⟩, k1⟩, k2⟩, k3⟩
      · exact h
      · cases w <;> simp [serves, Want.kind] at hs
        · exact absurd h (k2 rfl)
        · exact absurd h (k1 rfl)
        · exact absurd h (k3 rfl)
    · rw [findEndpointTargets_total F c2 r r.key (hF _ _ _ (ht .ept (by decide))) hne (knows _ h12 F hF) (own _ h12) (by rw [h12]; exact hr) (by simp [hk]) e,
        findPublicationTargets_total F c1 r r.key (hF _ _ _ (ht .pub (by decide))) (knows _ h1 F hF) e,
        findInputTargets_total F c r r.key (hF _ _ _ (ht .inp (by decide))) e]

theorem request_inv {b : Broker} {R W} (i : BInv b R W) (w : Want) (n : IName) (src : GHandle) (fl : BitVec 16) (isEpt : Bool) (x : Wish)
    (hs : cloneOk b w src fl isEpt) (ha : w = .ept → asksFilter b.handles src = !isEpt) (hk : w = .ept → ∃ f, b.handles.findHandle src = some f)
    (hx : ∀ F, Knows F b → report F (.need w n src (fl.getLsbD 1) (fl.getLsbD 9) (!isEpt)) = report F x) :
    BInv (b.request w n src fl isEpt) R (W ++ [x]) := by
  have tab : ∀ w' n', (b.request w n src fl isEpt).table w' n' = b.table w' n' := by
    intro w' n'; unfold table; rw [request_handles]
  refine ⟨by rw [request_handles]; exact i.hist, i.keys, ?_, fun F hF e => ?_⟩
  · exact (request_cl i.cl w n src fl isEpt (fun h => h) hk).mono (fun w' n' h => by rw [tab]; exact h)
  · have hF' : Knows F b := fun w' n' r h => hF w' n' r (by rw [tab]; exact h)
    rw [request_total F b w n src fl isEpt hF' hs ha, i.tot F hF', hx F hF', count_snoc]

theorem BHist.inv {b R W} (h : BHist b R W) : BInv b R W := by
  induction h with
  | start =>
    exact ⟨.start, by simp, ⟨by simp, by simp, by simp, by simp, by simp, by simp, by simp, by simp, by simp, rfl, rfl⟩, fun F _ e => rfl⟩
  | @register b R W g k name fl h0 hf hd hok i =>
    obtain ⟨ih, ik, ic, it⟩ := i
    have hdup : b.duplicate k name = false := by
      cases hb : b.duplicate k name with
      | false => rfl
      | true => unfold Broker.register at hok; rw [hb] at hok; simp at hok
    have hr2 : (b.handles.addHandleId g k name fl).2 = true := by
      unfold Broker.register at hok; rw [hdup] at hok
      simp only [Bool.false_eq_true, if_false] at hok
      split at hok
      · rename_i h; exact h
      · cases hok
    have hkey : b.handles.actKey k name = if name = [] then b.handles.generateName k else name := by
      unfold HM.actKey; by_cases h : name = [] <;> simp [h]
    have hkne : (if name = [] then b.handles.generateName k else name) ≠ [] := by
      split
      · exact generateName_ne _ _
      · assumption
    have hreg : (b.register g k name fl).1 = ({ b with handles := (b.handles.addHandleId g k name fl).1 } : Broker).notify
        { gh := g, kind := k, key := if name = [] then b.handles.generateName k else name, flags := fl } := by
      unfold Broker.register
      rw [hdup]
      simp only [Bool.false_eq_true, if_false, hr2, if_true, hkey]
    have h' := Hist.register (.addId g k name fl) ih (by
      intro x hx
      refine ⟨?_, hf x hx⟩
      have := (List.getElem?_eq_some_iff.mp (ih.wf.recs x hx)).1
      simp only [RegOp.entry]; omega)
    have hrun : ((RegOp.addId g k name fl).run b.handles) = b.handles.addHandleId g k name fl := rfl
    rw [hrun, hr2] at h'
    simp only [if_true, RegOp.entry] at h'
    rw [hreg]
    obtain ⟨c1, o1, r1, t1, k1, tt⟩ := register_ready ih ik ic h' hkne
    obtain ⟨c2, h2, t2⟩ := notify_ok _ c1 o1 r1 t1 hd
    refine ⟨by rw [h2]; exact h', ?_, ?_, fun F hF e => ?_⟩
    · intro e he
      rcases List.mem_cons.mp he with rfl | he
      · exact hkne
      · exact ik e he
    · refine c2.mono (fun w n hn => ?_)
      unfold table; rw [h2]; exact hn
    · have hF' : Knows F ({ b with handles := (b.handles.addHandleId g k name fl).1 } : Broker) := by
        intro w n r hr
        apply hF w n r
        unfold table; rw [h2]; exact hr
      rw [t2 F hF', tt, it F (k1 F hF')]
  | @duplicate b R W g k name fl h0 hd i =>
    have : (b.register g k name fl).1 = b := by unfold Broker.register; rw [if_pos hd]
    rw [this]; exact i
  | @request b R W w n src fl isEpt h0 hs i =>
    obtain ⟨x, hx, hg, hw⟩ := hs
    have hfind : b.handles.findHandle src = some x.info := (HM.C26_find i.hist _ _).mpr ⟨x, hx, hg, rfl⟩
    refine request_inv i w n src fl isEpt _ ?_ ?_ (fun _ => ⟨_, hfind⟩) (fun _ _ => rfl)
    · intro h1 h2 f hf h9
      rw [hfind] at hf; cases hf
      rcases hw h1 with ⟨h, _⟩ | ⟨_, _, h⟩
      · rw [h] at h2; cases h2
      · rw [h]; exact h9
    · intro h1
      unfold asksFilter
      rw [hfind]
      rcases hw h1 with ⟨h, h'⟩ | ⟨h, h', _⟩
      · rw [h]; simpa using h'
      · rw [h]; simpa using h'
  | @dataLink b R W s t h0 i =>
    unfold Broker.dataLink
    split
    · rename_i p hp
      refine request_inv i .inp t p.gh 0 false _ (fun h => by cases h) (fun h => by cases h) (fun h => by cases h) (fun F hF => ?_)
      simp only [report, hF .pub s p hp]
      cases F .inp t <;> rfl
    · rename_i hp
      split
      · rename_i hi
        refine ⟨i.hist, i.keys, ?_, fun F hF e => ?_⟩
        · have c := i.cl
          exact ⟨c.pubs, c.inps, c.epts, c.filts, fun p hp' => (mem_snoc hp').elim (c.links p) (fun e => by rw [e]; exact hp), c.eptLinks, c.srcs, c.dsts, c.known, c.quiet, c.fine⟩
        · have := i.tot F hF e
          rw [count_snoc, ← this, total_eq, total_eq]
          simp only [List.flatMap_append, List.flatMap_cons, List.flatMap_nil, List.append_nil, List.count_append]
          omega
      · rename_i inp hi
        refine request_inv i .pub s inp.gh 0 false _ (fun h => by cases h) (fun h => by cases h) (fun h => by cases h) (fun F hF => ?_)
        simp only [report, hF .inp t inp hi]
        cases F .pub s <;> rfl
  | @endpointLink b R W s t h0 i =>
    have lk : ∀ n p, b.handles.byName n .endpoint = some p → b.handles.findHandle p.gh = some p ∧ p.kind ≠ .filter := by
      intro n p hp
      obtain ⟨x, hx, h1, _, h3⟩ := (table_iff i.hist i.keys .ept n p).mp hp
      refine ⟨(HM.C26_find i.hist _ _).mpr ⟨x, hx, by rw [h1], h1⟩, ?_⟩
      rw [h1] at h3
      intro e; rw [e] at h3; revert h3; decide
    have ak : ∀ n p, b.handles.byName n .endpoint = some p → asksFilter b.handles p.gh = !true := by
      intro n p hp
      obtain ⟨h1, h2⟩ := lk n p hp
      unfold asksFilter; rw [h1]; simpa using h2
    unfold Broker.endpointLink
    split
    · rename_i p hp
      refine request_inv i .ept t p.gh (Flags.setFlag 0 destTarget) true _ (fun _ h => by cases h) (fun _ => ak _ _ hp) (fun _ => ⟨_, (lk _ _ hp).1⟩) (fun F hF => ?_)
      simp only [report, hF .ept s p hp, setFlag0.1, setFlag0.2, Bool.not_true]
      cases F .ept t <;> rfl
    · rename_i hp
      split
      · rename_i hi
        refine ⟨i.hist, i.keys, ?_, fun F hF e => ?_⟩
        · have c := i.cl
          exact ⟨c.pubs, c.inps, c.epts, c.filts, c.links, fun p hp' => (mem_snoc hp').elim (c.eptLinks p) (fun e => by rw [e]; exact hp), c.srcs, c.dsts, c.known, c.quiet, c.fine⟩
        · have := i.tot F hF e
          rw [count_snoc, ← this, total_eq, total_eq]
          simp only [List.flatMap_append, List.flatMap_cons, List.flatMap_nil, List.append_nil, List.count_append]
          omega
      · rename_i p hi
        refine request_inv i .ept s p.gh 0 true _ (fun _ h => by cases h) (fun _ => ak _ _ hi) (fun _ => ⟨_, (lk _ _ hi).1⟩) (fun F hF => ?_)
        simp only [report, hF .ept t p hi, Bool.not_true]
        cases F .ept s <;> rfl
  | @filterLink b R W f e dest h0 i =>
    unfold Broker.filterLink
    have d1 : (if dest = true then Flags.setFlag 0 destTarget else (0 : BitVec 16)).getLsbD 1 = dest ∧
        (if dest = true then Flags.setFlag 0 destTarget else (0 : BitVec 16)).getLsbD 9 = false := by cases dest <;> decide
    simp only
    generalize (if dest = true then Flags.setFlag 0 destTarget else (0 : BitVec 16)) = fl at d1
    split
    · rename_i p hp
      obtain ⟨x, hx, h1, _, h3⟩ := (table_iff i.hist i.keys .filt f p).mp hp
      have hfind : b.handles.findHandle p.gh = some p := (HM.C26_find i.hist _ _).mpr ⟨x, hx, by rw [h1], h1⟩
      have hkind : p.kind = .filter := by rw [h1] at h3; revert h3; cases p.kind <;> decide
      have bits : (if Flags.checkFlag p.flags cloneFlag = true then Flags.setFlag fl cloneFlag else fl).getLsbD 1 = dest ∧
          (if Flags.checkFlag p.flags cloneFlag = true then Flags.setFlag fl cloneFlag else fl).getLsbD 9 = p.flags.getLsbD 9 := by
        rw [Flags.C28_check _ _ (by decide)]
        by_cases hc : p.flags.getLsbD cloneFlag = true
        · rw [if_pos hc, Flags.C28_set _ _ _ (by decide), Flags.C28_set _ _ _ (by decide), if_neg (show ¬ 1 = cloneFlag by decide),
            if_pos (show 9 = cloneFlag from rfl)]
          exact ⟨d1.1, (show p.flags.getLsbD 9 = true from hc).symm⟩
        · rw [if_neg hc]
          exact ⟨d1.1, d1.2.trans (Bool.eq_false_iff.mpr hc : p.flags.getLsbD 9 = false).symm⟩
      refine request_inv i .ept e p.gh _ false _ ?_ ?_ (fun _ => ⟨_, hfind⟩) (fun F hF => ?_)
      · intro _ _ f' hf' h9
        rw [hfind] at hf'; cases hf'
        rw [bits.2]; exact h9
      · intro _
        unfold asksFilter; rw [hfind]; simpa using hkind
      · rw [bits.1, bits.2]
        simp only [report, hF .filt f p hp, Bool.not_false]
        cases F .ept e <;> rfl
    · rename_i hp
      split
      · rename_i hi
        have c := i.cl
        split
        · rename_i hd
          subst hd
          refine ⟨i.hist, i.keys, ?_, fun F hF e' => ?_⟩
          · exact ⟨c.pubs, c.inps, c.epts, c.filts, c.links, c.eptLinks, c.srcs, fun p hp' => (mem_snoc hp').elim (c.dsts p) (fun e => by rw [e]; exact hp), c.known, c.quiet, c.fine⟩
          · have := i.tot F hF e'
            rw [count_snoc, ← this, total_eq, total_eq]
            simp only [List.flatMap_append, List.flatMap_cons, List.flatMap_nil, List.append_nil, List.count_append]
            omega
        · rename_i hd
          have hd : dest = false := by simpa using hd
          subst hd
          refine ⟨i.hist, i.keys, ?_, fun F hF e' => ?_⟩
          · exact ⟨c.pubs, c.inps, c.epts, c.filts, c.links, c.eptLinks, fun p hp' => (mem_snoc hp').elim (c.srcs p) (fun e => by rw [e]; exact hp), c.dsts, c.known, c.quiet, c.fine⟩
          · have := i.tot F hF e'
            rw [count_snoc, ← this, total_eq, total_eq]
            simp only [List.flatMap_append, List.flatMap_cons, List.flatMap_nil, List.append_nil, List.count_append]
            omega
      · rename_i p hi
        refine request_inv i .filt f p.gh fl false _ (fun h => by cases h) (fun h => by cases h) (fun h => by cases h) (fun F hF => ?_)
        rw [d1.1, d1.2]
        simp only [report, hF .ept e p hi, Bool.false_or]
        cases F .filt f <;> rfl


/-! ### Theorems -/

/-- the message an outcome is, if it is one -/
def Ev.msg : Ev → Option CView | .sent v => some v | .missing _ => none
/-- the missing names an outcome is, if it is that -/
def Ev.names : Ev → Option (List (Want × IName)) | .sent _ => none | .missing ns => some ns

/-- a wish for which some interface is not registered -/
def incomplete (F : Registry) (w : Wish) : Prop := ∃ ns, Ev.missing ns ∈ report F w

/-- the number of entries in the pending lists -/
def pendingCount (b : Broker) : Nat :=
  b.uPubs.length + b.uInps.length + b.uEpts.length + b.uFilts.length + b.links.length + b.eptLinks.length + b.srcFilts.length +
    b.dstFilts.length

theorem BInv.knows {b : Broker} {R W} (i : BInv b R W) : Knows (registry R) b := by
  intro w n r h
  rw [registry_eq i.hist i.keys]
  exact h

theorem perm_of_inv {b : Broker} {R W} (i : BInv b R W) :
    (b.out.map (fun m => Ev.sent (view m)) ++ pending (registry R) b).Perm (W.flatMap (report (registry R))) := by
  rw [List.perm_iff_count]
  intro e
  exact i.tot _ i.knows e

theorem flatMap_single {α : Type} (l : List α) (f : α → List Ev) (h : ∀ p ∈ l, ∃ ns, f p = [.missing ns]) :
    (∀ e ∈ l.flatMap f, ∃ ns, e = .missing ns) ∧ (l.flatMap f).length = l.length := by
  induction l with
  | nil => exact ⟨by simp, rfl⟩
  | cons a l ih =>
    obtain ⟨ns, ha⟩ := h a (List.mem_cons_self ..)
    obtain ⟨h1, h2⟩ := ih (fun p hp => h p (List.mem_cons_of_mem _ hp))
    rw [List.flatMap_cons, ha]
    refine ⟨fun e he => ?_, by simp [h2]⟩
    rcases List.mem_append.mp he with h | h
    · exact ⟨ns, by simpa using h⟩
    · exact h1 e h

theorem pending_missing {b : Broker} {R W} (i : BInv b R W) :
    (∀ e ∈ pending (registry R) b, ∃ ns, e = .missing ns) ∧ (pending (registry R) b).length = b.pendingCount := by
  have none' : ∀ w n, b.table w n = none → registry R w n = none := by
    intro w n h; rw [registry_eq i.hist i.keys]; exact h
  have c := i.cl
  have e1 := flatMap_single b.uPubs (repU (registry R) .pub) (fun p hp => by
    refine ⟨[(.pub, p.1)], ?_⟩; unfold repU; simp only [report, none' _ _ (c.pubs p hp)])
  have e2 := flatMap_single b.uInps (repU (registry R) .inp) (fun p hp => by
    refine ⟨[(.inp, p.1)], ?_⟩; unfold repU; simp only [report, none' _ _ (c.inps p hp)])
  have e3 := flatMap_single b.uEpts (repE (registry R) b.handles) (fun p hp => by
    unfold repE
    cases asksFilter b.handles p.2.1 <;> exact ⟨[(.ept, p.1)], by simp only [report, none' _ _ (c.epts p hp)]⟩)
  have e4 := flatMap_single b.uFilts (repU (registry R) .filt) (fun p hp => by
    refine ⟨[(.filt, p.1)], ?_⟩; unfold repU; simp only [report, none' _ _ (c.filts p hp)])
  have e5 := flatMap_single b.links (fun p => report (registry R) (.data p.1 p.2)) (fun p hp => by
    simp only [report, none' _ _ (c.links p hp)]
    cases registry R .inp p.2 <;> exact ⟨_, rfl⟩)
  have e6 := flatMap_single b.eptLinks (fun p => report (registry R) (.endpoints p.1 p.2)) (fun p hp => by
    simp only [report, none' _ _ (c.eptLinks p hp)]
    cases registry R .ept p.2 <;> exact ⟨_, rfl⟩)
  have e7 := flatMap_single b.srcFilts (fun p => report (registry R) (.filt p.1 p.2 false)) (fun p hp => by
    simp only [report, none' _ _ (c.srcs p hp)]
    cases registry R .ept p.2 <;> exact ⟨_, rfl⟩)
  have e8 := flatMap_single b.dstFilts (fun p => report (registry R) (.filt p.1 p.2 true)) (fun p hp => by
    simp only [report, none' _ _ (c.dsts p hp)]
    cases registry R .ept p.2 <;> exact ⟨_, rfl⟩)
  unfold pending pendingCount
  constructor
  · intro e he
    simp only [List.mem_append] at he
    rcases he with (((((((h | h) | h) | h) | h) | h) | h) | h)
    · exact e1.1 e h
    · exact e2.1 e h
    · exact e3.1 e h
    · exact e4.1 e h
    · exact e5.1 e h
    · exact e6.1 e h
    · exact e7.1 e h
    · exact e8.1 e h
  · simp only [List.length_append, e1.2, e2.2, e3.2, e4.2, e5.2, e6.2, e7.2, e8.2]

theorem missing_filterMap {l : List Ev} (h : ∀ e ∈ l, ∃ ns, e = .missing ns) :
    l.filterMap Ev.msg = [] ∧ (l.filterMap Ev.names).length = l.length := by
  induction l with
  | nil => exact ⟨rfl, rfl⟩
  | cons a l ih =>
    obtain ⟨ns, rfl⟩ := h a (List.mem_cons_self ..)
    obtain ⟨h1, h2⟩ := ih (fun e he => h e (List.mem_cons_of_mem _ he))
    rw [List.filterMap_cons, List.filterMap_cons]
    exact ⟨h1, by simp only [Ev.names, List.length_cons, h2]⟩

theorem sent_filterMap (l : List CMsg) :
    (l.map (fun m => Ev.sent (view m))).filterMap Ev.msg = l.map view ∧ (l.map (fun m => Ev.sent (view m))).filterMap Ev.names = [] := by
  induction l with
  | nil => exact ⟨rfl, rfl⟩
  | cons a l ih => simp [Ev.msg, Ev.names, ih.1, ih.2]

/-- **C27.**  After any history, the messages sent are, up to order, exactly those that the requests and links call for given the
interfaces registered: nothing is lost, nothing is sent twice, and the order of registrations and requests does not matter. -/
theorem C27_exactly_once {b R W} (h : BHist b R W) :
    (b.out.map view).Perm ((W.flatMap (report (registry R))).filterMap Ev.msg) := by
  have p := (perm_of_inv h.inv).filterMap Ev.msg
  rw [List.filterMap_append, (sent_filterMap _).1, (missing_filterMap (pending_missing h.inv).1).1, List.append_nil] at p
  exact p

/-- **C27.**  What is listed as pending is exactly what is asked for and lacks an interface. -/
theorem C27_pending {b R W} (h : BHist b R W) :
    ((pending (registry R) b).filterMap Ev.names).Perm ((W.flatMap (report (registry R))).filterMap Ev.names) ∧
    b.pendingCount = ((W.flatMap (report (registry R))).filterMap Ev.names).length := by
  have p := (perm_of_inv h.inv).filterMap Ev.names
  rw [List.filterMap_append, (sent_filterMap _).2, List.nil_append] at p
  refine ⟨p, ?_⟩
  rw [← p.length_eq, (missing_filterMap (pending_missing h.inv).1).2, (pending_missing h.inv).2]

theorem hasUnknowns_iff (b : Broker) : b.hasUnknowns = true ↔ b.pendingCount ≠ 0 := by
  unfold hasUnknowns pendingCount
  simp only [Bool.not_eq_true', Bool.and_eq_false_iff, List.isEmpty_eq_false_iff, ← List.length_pos_iff]
  omega

/-- **C27.**  The broker has unknown handles exactly when some wish is incomplete. -/
theorem C27_unknowns {b R W} (h : BHist b R W) : b.hasUnknowns = true ↔ ∃ w ∈ W, incomplete (registry R) w := by
  rw [hasUnknowns_iff, (C27_pending h).2, ← Nat.pos_iff_ne_zero, List.length_pos_iff_exists_mem]
  constructor
  · rintro ⟨ns, hn⟩
    obtain ⟨e, he, h1⟩ := List.mem_filterMap.mp hn
    obtain ⟨w, hw, h2⟩ := List.mem_flatMap.mp he
    cases e with
    | sent v => cases h1
    | missing ns' => exact ⟨w, hw, ns', h2⟩
  · rintro ⟨w, hw, ns, hn⟩
    exact ⟨ns, List.mem_filterMap.mpr ⟨.missing ns, List.mem_flatMap.mpr ⟨w, hw, hn⟩, rfl⟩⟩

/-- **C27.**  No null pointer is dereferenced. -/
theorem C27_safe {b R W} (h : BHist b R W) : b.ub = false := h.inv.cl.fine

theorem registry_perm {b b' R R' W W'} (h : BHist b R W) (h' : BHist b' R' W')
    (hR : ∀ x, (∃ e ∈ R, e.info = x) ↔ ∃ e ∈ R', e.info = x) : registry R = registry R' := by
  funext w n
  rw [registry_eq h.inv.hist h.inv.keys, registry_eq h'.inv.hist h'.inv.keys]
  apply Option.ext
  intro r
  rw [table_iff h.inv.hist h.inv.keys, table_iff h'.inv.hist h'.inv.keys]
  constructor
  · rintro ⟨e, he, h1, h2, h3⟩
    obtain ⟨e', he', h4⟩ := (hR e.info).mp ⟨e, he, rfl⟩
    exact ⟨e', he', by rw [h4]; exact h1, by rw [h4]; exact h2, by rw [h4]; exact h3⟩
  · rintro ⟨e, he, h1, h2, h3⟩
    obtain ⟨e', he', h4⟩ := (hR e.info).mpr ⟨e, he, rfl⟩
    exact ⟨e', he', by rw [h4]; exact h1, by rw [h4]; exact h2, by rw [h4]; exact h3⟩

/-- **C27.**  Two histories with the same registrations and the same requests, in any two orders, connect the same interfaces. -/
theorem C27_order {b b' R R' W W'} (h : BHist b R W) (h' : BHist b' R' W')
    (hR : ∀ x, (∃ e ∈ R, e.info = x) ↔ ∃ e ∈ R', e.info = x) (hW : W.Perm W') :
    (b.out.map view).Perm (b'.out.map view) ∧ b.pendingCount = b'.pendingCount := by
  have e := registry_perm h h' hR
  have q : (W.flatMap (report (registry R))).Perm (W'.flatMap (report (registry R'))) := by rw [e]; exact hW.flatMap_right _
  refine ⟨(C27_exactly_once h).trans ((q.filterMap _).trans (C27_exactly_once h').symm), ?_⟩
  rw [(C27_pending h).2, (C27_pending h').2]
  exact (q.filterMap _).length_eq

/-! ### A history with everything in it -/

/-- federate 1's interface number `n` -/
def gh (n : Int) : GHandle := ⟨1, n⟩

/-- an input asks for a publication that does not exist yet; an endpoint link with both ends missing; a filter that clones asks
for an endpoint; then the publication, the two endpoints and a duplicate appear, and a data link to an unknown input is asked for -/
theorem demo_hist : ∃ b R W, BHist b R W ∧ W.length = 4 ∧ R.length = 5 ∧ b.out.length = 6 ∧ b.hasUnknowns = true := by
  refine ⟨_, _, _,
    BHist.dataLink [10] [99] <|
    BHist.duplicate (gh 9) .publication [10] 0
     (BHist.register (gh 4) .endpoint [21] 0
      (BHist.register (gh 3) .endpoint [20] 0
       (BHist.register (gh 2) .publication [10] 0
        (BHist.request .ept [20] (gh 1) 0x202 false
         (BHist.register (gh 1) .filter [30] 0x200
          (BHist.endpointLink [20] [21]
           (BHist.request .pub [10] (gh 0) 0 false
            (BHist.register (gh 0) .input [1] 0 .start ?_ ?_ ?_) ?_)) ?_ ?_ ?_) ?_) ?_ ?_ ?_) ?_ ?_ ?_) ?_ ?_ ?_) ?_, ?_⟩
  all_goals first
    | decide +kernel
    | (intro h; cases h)
    | exact ⟨⟨0, ⟨gh 0, .input, [1], 0⟩⟩, by decide, rfl, by intro h; cases h⟩
    | exact ⟨⟨1, ⟨gh 1, .filter, [30], 0x200⟩⟩, by decide, rfl, fun _ => Or.inr ⟨rfl, rfl, by decide⟩⟩

/-! ### Where the claim fails -/

/-- **Defect.**  A reconnectable request that is pending when the broker is already operating is answered twice: once from the
list of unknown handles and once from the list of reconnections. -/
theorem C27_operating_twice :
    ((({ operating := true : Broker }).request .inp [5] (gh 0) 0x80 false).register (gh 1) .input [5] 0).1.out =
      [⟨.addSubscriber, gh 1, gh 0, 0⟩, ⟨.addPublisher, gh 0, gh 1, 0x80⟩,
       ⟨.addSubscriber, gh 1, gh 0, 0⟩, ⟨.addPublisher, gh 0, gh 1, 0x80⟩] := by decide +kernel

/-- **Defect.**  For a reconnectable filter the reconnection consults the list of pending requests instead: it gets nothing when the
filter registers again, where a publication does. -/
theorem C27_filter_not_reconnected :
    (({ operating := true, rFilts := [([5], gh 0, 0x80)] : Broker }).register (gh 1) .filter [5] 0).1.out = [] ∧
    (({ operating := true, rPubs := [([5], gh 0, 0x80)] : Broker }).register (gh 1) .publication [5] 0).1.out ≠ [] := by decide +kernel

/-- **Defect.**  A data sink that asks for an endpoint (so the request does not come from an endpoint) is connected as a filter if the
endpoint is registered already, and as an endpoint if it registers later. -/
theorem C27_sink_order :
    ((((({} : Broker).register (gh 0) .sink [1] 0).1.register (gh 1) .endpoint [5] 0).1.request .ept [5] (gh 0) 0 false).out.map (·.act)
      = [.addFilter, .addEndpoint]) ∧
    ((((({} : Broker).register (gh 0) .sink [1] 0).1.request .ept [5] (gh 0) 0 false).register (gh 1) .endpoint [5] 0).1.out.map (·.act)
      = [.addEndpoint, .addEndpoint]) := by decide +kernel

/-- **Defect.**  If the interface that asked for an endpoint is removed before the endpoint is registered, a null pointer is
dereferenced. -/
theorem C27_removed_requester :
    let b := (({} : Broker).register (gh 0) .input [1] 0).1.request .ept [5] (gh 0) 0 true
    (({ b with handles := b.handles.removeHandle (gh 0) } : Broker).register (gh 1) .endpoint [5] 0).1.ub = true := by decide +kernel

/-- **Defect.**  A request for an alias that is pending is not answered when the interface behind the alias is registered, though the
same request made afterwards is. -/
theorem C27_alias_order :
    let b : Broker := { handles := (HM.addAlias 4 {} [5] [6]).1 }
    ((b.request .pub [6] (gh 0) 0 false).register (gh 1) .publication [5] 0).1.out = [] ∧
    ((b.register (gh 1) .publication [5] 0).1.request .pub [6] (gh 0) 0 false).out ≠ [] := by decide +kernel

end Broker
end Verif
