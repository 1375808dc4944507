import Verif.Lemmas.Adv
import Verif.Props.MinTime
import Verif.Props.Goodbyes
/-!
# C44: announcements are kept

A federate tells those that depend on it the earliest time at which it may act (`word`, C04).  The data it
publishes while it holds time `t` carry the time stamp `t + outputDelay`
(src/helics/core/TimeCoordinator.hpp:132, src/helics/core/FederateState.cpp:648).  An announcement is kept when
no later time stamp lies before it.
-/
namespace Verif
namespace Announce
open Fed TC Causal Grants Goodbyes

/-- The time stamp of data sent by the user of `f` now. -/
def stamp (f : Fed) : Time := f.tc.granted + f.tc.info.outputDelay

/-- The user of `f` is in control and may send data: executing, no call pending, not disconnected. -/
def maySend (f : Fed) : Prop := f.state = .executing ∧ f.mode = true ∧ f.tc.disconnected = false

/-- The history holds no forced grant (an operator's override), no request to join a running federation and no
setting changed in executing mode; with `plain` it holds only time requests without iteration. -/
def Calm (plain : Prop) (limit : Int) : Fed → List FedOp → Prop
  | _, [] => True
  | f, o :: os => calm plain f o ∧ Calm plain limit (f.step limit o).1 os

theorem ok_initial {F : Prop} (s : FedId) (a b c : Bool) : Ok F (Fed.initial s a b c) := by
  intro _ _
  refine ⟨rfl, ⟨by simp [Fed.initial, Fed.floor], fun _ => by simp [Fed.initial, Fed.floor], by simp [Fed.initial]⟩, fun _ => rfl, ?_, ?_, ?_⟩
  · intro h; cases h
  · simp [Fed.initial, Fed.floor]
  · intro h; cases h

theorem go_run {F : Prop} (limit : Int) (f : Fed) (ops : List FedOp) (hi : Inv f) (ho : ∀ o ∈ ops, o.sane f.tc.self)
    (hc : Calm F limit f ops) : Go F f (f.run limit ops) := by
  induction ops generalizing f with
  | nil => exact .refl _
  | cons o os ih =>
    have h := step_ok limit f o hi (ho o (by simp))
    exact (go_step limit f o (ho o (by simp)) hc.1).trans
      (ih _ h.inv (by intro o' h'; rw [h.self]; exact ho o' (by simp [h'])) hc.2)

theorem run_append (limit : Int) (f : Fed) (a b : List FedOp) : f.run limit (a ++ b) = (f.run limit a).run limit b := by
  unfold Fed.run; rw [List.foldl_append]

theorem calm_append {F : Prop} (limit : Int) (f : Fed) (a b : List FedOp) (h : Calm F limit f (a ++ b)) :
    Calm F limit f a ∧ Calm F limit (f.run limit a) b := by
  induction a generalizing f with
  | nil => exact ⟨trivial, h⟩
  | cons o os ih =>
    obtain ⟨h1, h2⟩ := ih _ h.2
    exact ⟨⟨h.1, h1⟩, h2⟩

theorem kept {F : Prop} (limit : Int) (self : FedId) (ok ng gt : Bool) (early late : List FedOp)
    (hid : self ≠ parentBroker) (hops : ∀ o ∈ early ++ late, o.sane self)
    (hcalm : Calm F limit (Fed.initial self ok ng gt) (early ++ late))
    (m : Msg) (hm : m ∈ sent ((Fed.initial self ok ng gt).run limit early)) (hrep : m.action ≠ .globalError)
    (n e : Time) (hw : word m = .at n e)
    (hsend : maySend ((Fed.initial self ok ng gt).run limit (early ++ late)))
    (hkind : ((Fed.initial self ok ng gt).run limit (early ++ late)).tc.info.restrictive = true ∨ F)
    (hfirm : F → ((Fed.initial self ok ng gt).run limit (early ++ late)).tc.info.uninterruptible = true) :
    n ≤ stamp ((Fed.initial self ok ng gt).run limit (early ++ late)) ∧
    (F → e ≤ stamp ((Fed.initial self ok ng gt).run limit (early ++ late))) := by
  have hi := initial_inv self ok ng gt hid
  have hinv := (run_ok limit _ _ hi hops).1
  have hfloor : ((Fed.initial self ok ng gt).run limit (early ++ late)).floor = stamp ((Fed.initial self ok ng gt).run limit (early ++ late)) := by
    unfold Fed.floor stamp; rw [if_pos hsend.1, if_pos hsend.2.1]
  have hpol : Pol F ((Fed.initial self ok ng gt).run limit (early ++ late)) :=
    fun _ => ⟨hkind, hfirm, hinv.good.delta, hinv.good.offset⟩
  have hgo := go_run (F := F) limit _ _ hi hops hcalm (ok_initial self ok ng gt) ⟨hsend.2.2, .inr (.inr hsend.1)⟩ hpol
  obtain ⟨l, h1, h2⟩ := hgo.out
  rw [hfloor] at h2
  -- everything sent early is still in the transcript
  have hsub : m ∈ sent ((Fed.initial self ok ng gt).run limit (early ++ late)) := by
    obtain ⟨ce, cl⟩ := calm_append _ _ _ _ hcalm
    have hie := (run_ok limit _ early hi (fun o h => hops o (by simp [h]))).1
    have hse := (run_ok limit _ early hi (fun o h => hops o (by simp [h]))).2.2
    have hgl := go_run (F := F) limit ((Fed.initial self ok ng gt).run limit early) late hie
      (by intro o h; rw [hse]; exact hops o (by simp [h])) cl
    rw [← run_append] at hgl
    have hge := go_run (F := F) limit _ early hi (fun o h => hops o (by simp [h])) ce
    have hadv := hgl (fun a b => (hge (ok_initial self ok ng gt) a b).good) ⟨hsend.2.2, .inr (.inr hsend.1)⟩ hpol
    obtain ⟨l', h3, _⟩ := hadv.out
    unfold sent
    rw [h3, List.flatMap_append]
    exact List.mem_append_left _ hm
  unfold sent at hsub
  rw [h1] at hsub
  simp only [Fed.initial, List.nil_append] at hsub
  obtain ⟨p, hp, hx⟩ := List.mem_flatMap.mp hsub
  exact h2 p hp m hx hrep n e hw

/-- **C44 (restrictive).**  For every history of a federate with the restrictive time policy: whatever time `n` it
has announced as its next step at any moment, in any message to anybody, all data it sends afterwards carry a
time stamp not before `n`. -/
theorem C44_restrictive (limit : Int) (self : FedId) (ok ng gt : Bool) (early late : List FedOp)
    (hid : self ≠ parentBroker) (hops : ∀ o ∈ early ++ late, o.sane self)
    (hcalm : Calm False limit (Fed.initial self ok ng gt) (early ++ late))
    (m : Msg) (hm : m ∈ sent ((Fed.initial self ok ng gt).run limit early)) (hrep : m.action ≠ .globalError)
    (n e : Time) (hw : word m = .at n e)
    (hsend : maySend ((Fed.initial self ok ng gt).run limit (early ++ late)))
    (hpol : ((Fed.initial self ok ng gt).run limit (early ++ late)).tc.info.restrictive = true) :
    n ≤ stamp ((Fed.initial self ok ng gt).run limit (early ++ late)) :=
  (kept (F := False) limit self ok ng gt early late hid hops hcalm m hm hrep n e hw hsend (.inl hpol) (fun h => h.elim)).1

/-- **C44 (uninterruptible).**  For every history of an uninterruptible federate that asks without iteration: both
the announced next step and the announced event time lie at or before the time stamps of all later data. -/
theorem C44_uninterruptible (limit : Int) (self : FedId) (ok ng gt : Bool) (early late : List FedOp)
    (hid : self ≠ parentBroker) (hops : ∀ o ∈ early ++ late, o.sane self)
    (hcalm : Calm True limit (Fed.initial self ok ng gt) (early ++ late))
    (m : Msg) (hm : m ∈ sent ((Fed.initial self ok ng gt).run limit early)) (hrep : m.action ≠ .globalError)
    (n e : Time) (hw : word m = .at n e)
    (hsend : maySend ((Fed.initial self ok ng gt).run limit (early ++ late)))
    (hpol : ((Fed.initial self ok ng gt).run limit (early ++ late)).tc.info.uninterruptible = true) :
    n ≤ stamp ((Fed.initial self ok ng gt).run limit (early ++ late)) ∧
    e ≤ stamp ((Fed.initial self ok ng gt).run limit (early ++ late)) :=
  let h := kept (F := True) limit self ok ng gt early late hid hops hcalm m hm hrep n e hw hsend (.inr trivial) (fun _ => hpol)
  ⟨h.1, h.2 trivial⟩

/-! ### Grants are told -/

/-- the transcript ends with one grant message per dependent -/
def Told (r : TC) : Prop := ∃ pre m, r.out = pre ++ timingCopies r.deps m invalidFed ∧
  m.action = .timeGrant ∧ m.actionTime = r.granted ∧ m.source = r.self

theorem told_updateTimeGrant (a : TC) : Told a.updateTimeGrant := by
  unfold updateTimeGrant
  dsimp only
  unfold transmit
  dsimp only
  refine ⟨_, _, rfl, rfl, ?_, ?_⟩ <;> (repeat' split) <;> rfl

theorem told_checkTimeGrant (c : TC) (t : FedId)
    (h : (c.checkTimeGrant t).2 = .nextStep ∨ (c.checkTimeGrant t).2 = .iterating) : Told (c.checkTimeGrant t).1 := by
  have hf : ∀ (u : TC) (g : FedId) (s : Bool) (p : MPR), (u.finishGrant g s p).2 = .nextStep ∨ (u.finishGrant g s p).2 = .iterating →
      Told (u.finishGrant g s p).1 := by
    intro u g s p
    unfold finishGrant
    split
    · intro h; rcases h with h | h <;> cases h
    · intro _; exact told_updateTimeGrant _
    · split
      · intro _; exact told_updateTimeGrant _
      · intro _; exact told_updateTimeGrant _
    · rename_i h1 h2 h3
      intro h
      rcases h with h | h <;> simp_all
  have hn : ∀ (u : TC) (g : FedId) (s : Bool), (u.grantNoIter g s).2 = .nextStep ∨ (u.grantNoIter g s).2 = .iterating →
      Told (u.grantNoIter g s).1 := by
    intro u g s
    unfold grantNoIter
    repeat' split
    all_goals first | (intro _; exact told_updateTimeGrant _) | exact hf _ _ _ _
  have hg : ∀ (u : TC) (g : FedId) (s : Bool), (u.grantIter g s).2 = .nextStep ∨ (u.grantIter g s).2 = .iterating →
      Told (u.grantIter g s).1 := by
    intro u g s
    unfold grantIter
    dsimp only
    repeat' split
    all_goals first | (intro _; exact told_updateTimeGrant _) | exact hf _ _ _ _
  revert h
  unfold checkTimeGrant
  dsimp only
  repeat' split
  · intro h; rcases h with h | h <;> cases h
  · intro h; rcases h with h | h <;> cases h
  · intro h; rcases h with h | h <;> cases h
  · exact hn _ _ _
  · exact hg _ _ _
  · exact hg _ _ _
  · exact hf _ _ _ _

theorem told_last (r : TC) (h : Told r) (d : DepInfo) (hd : d ∈ r.deps) (hdep : d.dependent = true) (hv : d.fedID ≠ invalidFed) :
    ∃ m, ((r.out.flatMap Packet.msgs).filter (fun x => x.dest == d.fedID)).getLast? = some m ∧
      m.action = .timeGrant ∧ m.actionTime = r.granted ∧ m.source = r.self := by
  obtain ⟨pre, m, h1, h2, h3, h4⟩ := h
  have hall : ∀ x ∈ (timingCopies r.deps m invalidFed).flatMap Packet.msgs,
      x.action = .timeGrant ∧ x.actionTime = r.granted ∧ x.source = r.self := by
    intro x hx
    obtain ⟨p, hp, hx⟩ := List.mem_flatMap.mp hx
    obtain ⟨d', _, hd'⟩ := List.mem_filterMap.mp hp
    split at hd'
    · cases hd'
      simp only [Packet.msgs, List.mem_singleton] at hx
      subst hx
      split <;> exact ⟨h2, h3, h4⟩
    · cases hd'
  have hne : ((timingCopies r.deps m invalidFed).flatMap Packet.msgs).filter (fun x => x.dest == d.fedID) ≠ [] := by
    have hc : (({ m with dest := d.fedID } : Msg)) ∈ ((timingCopies r.deps m invalidFed).flatMap Packet.msgs).filter (fun x => x.dest == d.fedID) := by
      refine List.mem_filter.mpr ⟨List.mem_flatMap.mpr ⟨.single { m with dest := d.fedID }, List.mem_filterMap.mpr ⟨d, hd, ?_⟩, by simp [Packet.msgs]⟩, by simp⟩
      rw [if_pos (by simp [hdep, hv])]
      rw [if_neg (by rw [h2]; simp)]
    intro h; rw [h] at hc; cases hc
  rw [h1, List.flatMap_append, List.filter_append, List.getLast?_append]
  obtain ⟨x, hx⟩ : ∃ x, (((timingCopies r.deps m invalidFed).flatMap Packet.msgs).filter (fun x => x.dest == d.fedID)).getLast? = some x := by
    cases hl : (((timingCopies r.deps m invalidFed).flatMap Packet.msgs).filter (fun x => x.dest == d.fedID)).getLast? with
    | none => exact absurd (List.getLast?_eq_none_iff.mp hl) hne
    | some x => exact ⟨x, rfl⟩
  refine ⟨x, by rw [hx]; rfl, hall x ?_⟩
  exact (List.mem_filter.mp (List.mem_of_getLast? hx)).1

/-- The last message sent to `d` so far. -/
def lastTo (d : FedId) (f : Fed) : Option Msg := ((sent f).filter (fun x => x.dest == d)).getLast?

/-- **C44 (grants are told).**  When a time is granted to the user (as next step or for another iteration), the last
message to every federate depending on it is a grant message carrying exactly that time. -/
theorem C44_grant_told (limit : Int) (f : Fed) (o : FedOp) (hf : Reached limit f) (hs : f.state = .executing)
    (ho : o.sane f.tc.self) (hforce : ∀ cmd, o = .msg cmd → cmd.action ≠ .forceTimeGrant)
    (T : Time) (hT : returned (f.step limit o) = some T) (hend : T ≠ maxVal)
    (d : DepInfo) (hd : d ∈ (f.step limit o).1.tc.deps) (hdep : d.dependent = true) (hv : d.fedID ≠ invalidFed) :
    ∃ m, lastTo d.fedID (f.step limit o).1 = some m ∧ m.action = .timeGrant ∧ m.actionTime = T ∧
      m.source = f.tc.self := by
  have hi := hf.inv
  have hself := (step_ok limit f o hi ho).self
  have key : ∀ (u : Fed) (cmd : Msg) (r : Fed × MPR), Effect u cmd r → cmd.action ≠ .forceTimeGrant → returned r = some T →
      Told r.1.tc ∧ r.1.tc.granted = T := by
    intro u cmd r he hne hr
    cases he with
    | quiet _ _ _ _ hp _ =>
      have := returned_none (r := r) (by rcases hp with e | e | e <;> rw [e] <;> decide)
        (by rcases hp with e | e | e <;> rw [e] <;> decide) (by rcases hp with e | e | e <;> rw [e] <;> decide)
      rw [this] at hr; cases hr
    | forced ha => exact absurd ha hne
    | exit hx _ =>
      unfold returned at hr
      split at hr
      · rename_i e; rw [e] at hx; rcases hx with h | h | h <;> cases h
      · cases hr
    | attempt c trig _ _ _ hse ht hp _ _ =>
      unfold returned at hr
      rw [if_pos hse, hp] at hr
      rw [ht]
      split at hr
      · rename_i hn; injection hr with hr; rw [ht] at hr; exact ⟨told_checkTimeGrant c trig (.inl hn), hr⟩
      · rename_i hn; injection hr with hr; rw [ht] at hr; exact ⟨told_checkTimeGrant c trig (.inr hn), hr⟩
      · injection hr with hr; exact absurd hr.symm hend
      · cases hr
  have hfin : Told (f.step limit o).1.tc ∧ (f.step limit o).1.tc.granted = T := by
    cases o with
    | msg cmd =>
      exact key f cmd _ (process_effect f cmd hs (fun hx => ho.2 ⟨Or.inl hx.1, hx.2.1, hx.2.2⟩) hi.self) (hforce cmd rfl) hT
    | timeRequest t it nv nm =>
      revert hT
      simp only [step]
      split
      · intro hT
        refine key { f with tc := f.tc.timeRequest t (f.limitIter limit it) nv nm, mode := false } _ _
          (process_effect _ { action := .timeCheck, source := f.tc.self, dest := f.tc.self, actionTime := t } hs
          (fun hx => by have := hx.1; cases this) ?_) (by simp) hT
        show TC.self _ ≠ _
        rw [(timeRequest_fields f.tc t (f.limitIter limit it) nv nm).2.2.2.1]
        exact hi.self
      · intro hT; unfold returned at hT; rw [if_pos hs] at hT; cases hT
    | execRequest it =>
      simp only [step] at hT
      rw [if_neg (by rw [hs]; simp)] at hT
      unfold returned at hT; rw [if_pos hs] at hT; cases hT
    | value cmd => rw [returned_none (by simp [step]) (by simp [step]) (by simp [step])] at hT; cases hT
    | message cmd => rw [returned_none (by simp [step]) (by simp [step]) (by simp [step])] at hT; cases hT
    | setTime p v =>
      simp only [step] at hT
      split at hT <;> (rw [returned_none (by simp) (by simp) (by simp)] at hT; cases hT)
    | setFlag p v => rw [returned_none (by simp [step]) (by simp [step]) (by simp [step])] at hT; cases hT
    | setMaxIterations v => rw [returned_none (by simp [step]) (by simp [step]) (by simp [step])] at hT; cases hT
  obtain ⟨m, h1, h2, h3, h4⟩ := told_last _ hfin.1 d hd hdep hv
  exact ⟨m, h1, h2, h3.trans hfin.2, h4.trans hself⟩

/-! ### What is announced by default -/

/-- **C44 (default policy).**  A federate that can be interrupted never announces a next step after the first grid
time at which it may react to a dependency: not after its own next possible time, or the first allowed time at
or after what the dependency said about its events, plus the input and output delays.  This holds for every
table in which all entries are executing, so no announcement overlooks a dependency, a parent included. -/
theorem C44_default_announcement (c : TC) (hexec : ∀ d ∈ c.deps, MinTime.Executing d ∧ 0 ≤ d.next ∧ 0 ≤ d.Te ∧ 0 ≤ d.minDe)
    (hu : c.info.uninterruptible = false) (d : DepInfo) (hd : d ∈ c.deps) (hdep : d.dependency = true)
    (hv : d.fedID ≠ invalidFed) (hc : d.connection ≠ .self) (b : Time)
    (hb : (MinTime.Usable c.seq d → b = d.minDe) ∧ (¬ MinTime.Usable c.seq d → b = d.next))
    (hfar : b + c.info.inputDelay < cTerm) :
    c.updateTimeFactors.mkTimeRequest.actionTime ≤
      max (if c.iterating = .noIterations then c.getNextPossibleTime else c.granted)
        (allowedTime c.info c.grantBase (b + c.info.inputDelay)) + c.info.outputDelay := by
  have hmin : c.updateAggregates.minminDe ≤ b := by
    have h := MinTime.C13_dependent_event_bound .total c.deps (c.info.restrictive || c.globalTime) invalidFed invalidFed c.seq hexec d hd
      ⟨hdep, hv, fun h => by have := h.1; simp [FedId.isValid, invalidFed] at this, trivial⟩
    show (MinTime.aggregate .total c.deps (c.info.restrictive || c.globalTime) invalidFed invalidFed c.seq).minDe ≤ b
    by_cases hus : MinTime.Usable c.seq d
    · rw [hb.1 hus]; exact h.1 hus
    · rw [hb.2 hus]; exact h.2 hc hus
  have ha : ∀ u : TC, u.mkTimeRequest.actionTime ≤ u.next := by
    intro u
    have hs : ∀ (m : Msg) (i : IterReq), (setIterationFlags m i).actionTime = m.actionTime := by
      intro m i; cases i <;> rfl
    unfold mkTimeRequest
    dsimp only
    split
    · rw [hs]; dsimp only; repeat' split
      all_goals omega
    · dsimp only; repeat' split
      all_goals omega
  refine Int.le_trans (ha _) ?_
  show c.updateAggregates.nextEvent ≤ _
  have hm := allowedTime_mono c.info c.grantBase (c.updateAggregates.minminDe + c.info.inputDelay) (b + c.info.inputDelay) (by omega) hfar
  unfold nextEvent
  rw [show c.updateAggregates.info = c.info from rfl, hu]
  dsimp only
  rw [if_neg (by simp)]
  rw [show c.updateAggregates.iterating = c.iterating from rfl,
    show c.updateAggregates.getNextPossibleTime = c.getNextPossibleTime from rfl,
    show c.updateAggregates.granted = c.granted from rfl,
    show c.updateAggregates.generateAllowedTime (c.updateAggregates.minminDe + c.info.inputDelay) =
      allowedTime c.info c.grantBase (c.updateAggregates.minminDe + c.info.inputDelay) from rfl]
  generalize (if c.iterating = .noIterations then c.getNextPossibleTime else c.granted) = n0
  split <;> omega

-- a table with a parent (4) that announced its events from time 6 on: nothing after 7 is announced (input delay 1)
example : let c : TC := { self := 7, granted := 0, grantBase := 0, requested := 50, info := { inputDelay := 1 }
                          deps := [{ fedID := 4, dependency := true, connection := .parent, state := .timeReq, next := 5, Te := 6, minDe := 6 }] }
    (∀ d ∈ c.deps, MinTime.Executing d ∧ 0 ≤ d.next ∧ 0 ≤ d.Te ∧ 0 ≤ d.minDe) ∧ c.updateTimeFactors.mkTimeRequest.actionTime = 7 := by
  refine ⟨?_, by decide⟩
  intro d hd
  rw [List.mem_singleton.mp hd]
  exact ⟨.inr (.inl rfl), by decide, by decide, by decide⟩

/-! ### Witnesses -/

/-- federate 7 (restrictive, output delay 2) depends on 8, is a dependency of 9, and asks for 10 -/
def early : List FedOp :=
  [.setFlag .restrictive true, .setTime .outputDelay 2,
   .msg { action := .addDependency, source := 8, dest := 7 }, .msg { action := .addDependent, source := 9, dest := 7 },
   .msg { action := .initGrant, dest := 7 }, .execRequest .noIterations, fromEight .execRequest 0,
   fromEight .execGrant 0, .timeRequest 10 .noIterations maxVal maxVal]

/-- the same federate, uninterruptible instead of restrictive -/
def earlyFirm : List FedOp := .setFlag .uninterruptible true :: early.tail

/-- then 8 announces 20 and the request is answered -/
def late : List FedOp := [fromEight .timeRequest 20]

theorem early_sane : (∀ o ∈ early ++ late, o.sane 7) ∧ (∀ o ∈ earlyFirm ++ late, o.sane 7) := by
  constructor <;> intro o ho <;>
  simp only [early, earlyFirm, late, fromEight, List.tail_cons, List.cons_append, List.nil_append, List.mem_cons, List.not_mem_nil, or_false] at ho <;>
  rcases ho with rfl | rfl | rfl | rfl | rfl | rfl | rfl | rfl | rfl | rfl <;> simp [FedOp.sane, Msg.sane, maxVal]

-- it has announced 3 (the next possible time 1 plus the delay 2) to 9, and then sends data stamped 12
example : (sent ((Fed.initial 7 true false false).run 100 early)).any
      (fun m => m.dest == 9 && decide (word m = .at 3 12)) = true ∧
    stamp ((Fed.initial 7 true false false).run 100 (early ++ late)) = 12 ∧
    ((Fed.initial 7 true false false).run 100 (early ++ late)).tc.info.restrictive = true ∧
    ((Fed.initial 7 true false false).run 100 (early ++ late)).state = .executing ∧
    ((Fed.initial 7 true false false).run 100 (early ++ late)).mode = true ∧
    ((Fed.initial 7 true false false).run 100 (early ++ late)).tc.disconnected = false := by decide +kernel

-- uninterruptible: it has announced 12 as next step and as event time
example : (sent ((Fed.initial 7 true false false).run 100 earlyFirm)).any
      (fun m => m.dest == 9 && decide (word m = .at 12 12)) = true ∧
    stamp ((Fed.initial 7 true false false).run 100 (earlyFirm ++ late)) = 12 ∧
    ((Fed.initial 7 true false false).run 100 (earlyFirm ++ late)).tc.info.uninterruptible = true ∧
    ((Fed.initial 7 true false false).run 100 (earlyFirm ++ late)).state = .executing ∧
    ((Fed.initial 7 true false false).run 100 (earlyFirm ++ late)).mode = true ∧
    ((Fed.initial 7 true false false).run 100 (earlyFirm ++ late)).tc.disconnected = false := by decide +kernel

example : Calm False 100 (Fed.initial 7 true false false) (early ++ late) ∧
    Calm True 100 (Fed.initial 7 true false false) (earlyFirm ++ late) := by
  constructor <;> (refine ⟨?_, ?_, ?_, ?_, ?_, ?_, ?_, ?_, ?_, ?_, trivial⟩ <;> simp only [calm] <;>
    first | trivial | (constructor <;> (try unfold joins) <;> decide) | (intro _; trivial) | decide | decide +kernel)

-- the grant of 10 is told to 9
example : returned (((Fed.initial 7 true false false).run 100 early).step 100 (fromEight .timeRequest 20)) = some 10 ∧
    (((Fed.initial 7 true false false).run 100 early).step 100 (fromEight .timeRequest 20)).1.tc.deps.any
      (fun d => d.dependent && d.fedID == 9) = true ∧
    (lastTo 9 (((Fed.initial 7 true false false).run 100 early).step 100 (fromEight .timeRequest 20)).1).map
      (fun m => (m.action, m.actionTime)) = some (.timeGrant, 10) := by decide +kernel

end Announce
end Verif
