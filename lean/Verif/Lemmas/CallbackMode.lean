import Verif.Lemmas.CallbackInv
/-! The mode a callback federate reports during the calls (C60). -/
namespace Verif
namespace Callback
open Fed TC Cb

theorem Cnt.join {it : IterReq} {J : Prop} {f r : Fed} {p : MPR} (h : Cnt it J f r p) (hj : ¬ J) :
    r.tc.dynamicJoining = f.tc.dynamicJoining := by
  cases h with
  | quiet _ _ _ _ h => exact h hj
  | again _ _ _ _ _ _ h => exact h hj
  | enter _ _ _ _ _ _ h => exact h hj

/-- not joining a running federation: nothing changes this, and executing mode starts at time zero -/
def Calm (f r : Fed) : Prop :=
  f.state ≠ .executing → f.tc.dynamicJoining = false →
    r.tc.dynamicJoining = false ∧ (r.state = .executing → r.tc.granted = 0)

theorem calm_process (f : Fed) (cmd : Msg) (hp : Plain cmd) (ho : ¬ ownExec f cmd) (hself : f.tc.self ≠ parentBroker)
    (hct : cmd.actionTime ≤ maxVal) (hj : ¬ joins cmd) : Calm f (f.process cmd).1 := by
  intro hs hd
  exact ⟨(Cnt.join (cnt_processN 4 f cmd hs hct hself) hj).trans hd, processN_zero 4 f cmd hp ho hself hct hs hd⟩

theorem calm_request (f : Fed) (t : Time) (it : IterReq) (nv nm : Time) (hself : f.tc.self ≠ parentBroker) (ht : t ≤ maxVal) :
    Calm f (f.request t it nv nm).1 := by
  intro hs hd
  unfold request
  have h4 := (timeRequest_fields f.tc t it nv nm).2.2.2.1
  have hd' : (f.tc.timeRequest t it nv nm).dynamicJoining = false :=
    (congrArg Core.dynamicJoining (timeRequest_core f.tc t it nv nm).1).trans hd
  exact calm_process { f with tc := f.tc.timeRequest t it nv nm, mode := false } _ ⟨by simp, by simp⟩ (fun k => by cases k.1)
    (by show (f.tc.timeRequest t it nv nm).self ≠ _; rw [h4]; exact hself) ht (fun k => by cases k.1) hs hd'

theorem join_entering (a : TC) (m : IterReq) : (a.enteringExecMode m).dynamicJoining = a.dynamicJoining := by
  unfold enteringExecMode
  dsimp only
  repeat' split
  all_goals first | rfl | exact congrArg Core.dynamicJoining (core_transmit _ _).1

theorem calm_requestExec (f : Fed) (it : IterReq) (hself : f.tc.self ≠ parentBroker) : Calm f (f.requestExec it).1 := by
  intro hs hd
  unfold requestExec process
  generalize hm : setIterationFlags { action := .execRequest, source := f.tc.self, dest := f.tc.self, indicator := true } it = m
  have h1 : m.action = .execRequest := by rw [← hm]; cases it <;> rfl
  have h2 : m.source = f.tc.self := by rw [← hm]; cases it <;> rfl
  have h3 : m.indicator = true := by rw [← hm]; cases it <;> rfl
  have h4 : m.actionTime ≤ maxVal := by rw [← hm]; cases it <;> (show (0 : Int) ≤ maxVal; decide)
  obtain ⟨it', hco⟩ : ∃ it', f.coordinator m = ({ f with tc := f.tc.enteringExecMode it', mode := false }, .continueProcessing, m) := by
    unfold coordinator
    simp only [h1, h2, h3, and_self, if_true]
    exact ⟨_, rfl⟩
  refine ⟨(Cnt.join (cnt_processN 4 f m hs h4 hself) (fun k => by have e := k.1; rw [h1] at e; cases e)).trans hd, ?_⟩
  unfold processN
  rw [hco]
  dsimp only
  rw [stateChange_same f { f with tc := f.tc.enteringExecMode it', mode := false } (Or.inl rfl)]
  simp only [Bool.false_eq_true, if_false]
  have hse : (f.tc.enteringExecMode it').self = f.tc.self := self_entering f.tc it'
  have h5 : secondSwitch { f with tc := f.tc.enteringExecMode it', mode := false } m = none := by
    unfold secondSwitch
    simp only [h1, h2, h3, hse, and_self, if_true]
  rw [h5]
  exact processN_zero 3 { f with tc := f.tc.enteringExecMode it', mode := false } { m with action := .execCheck } ⟨by simp, by simp⟩
    (fun k => by cases k.1) (by show (f.tc.enteringExecMode it').self ≠ _; rw [hse]; exact hself) h4 hs
    ((join_entering f.tc it').trans hd)

theorem calm_own (f : Fed) (nv nm : Time) (o : Own) (ho : Own.sane o) (hself : f.tc.self ≠ parentBroker) :
    Calm f (ownResult f nv nm o).1 := by
  have z : (0 : Int) ≤ maxVal := by decide
  cases o with
  | exec it => exact calm_requestExec f it hself
  | time t it => exact calm_request f t it nv nm hself (ho t it rfl)
  | disconnect => exact calm_process f _ ⟨by simp, by simp⟩ (fun k => nomatch k.1) hself z (fun k => nomatch k.1)
  | localError => exact calm_process f _ ⟨by simp, by simp⟩ (fun k => nomatch k.1) hself z (fun k => nomatch k.1)

theorem calm_other (f : Fed) (hi : Fed.Inv f) (o : FedOp) (ho : o.sane f.tc.self)
    (hp : ∀ cmd, o = .msg cmd → Plain cmd ∧ ¬ joins cmd) : Calm f (otherResult f o).1 := by
  have q : ∀ tc : TC, tc.dynamicJoining = f.tc.dynamicJoining → Calm f { f with tc := tc } :=
    fun tc e hs hd => ⟨e.trans hd, fun k => absurd k hs⟩
  cases o with
  | msg cmd =>
    have hn : ¬ ownExec f cmd := fun h => ho.2 ⟨Or.inl h.1, h.2.1, h.2.2⟩
    exact calm_process f cmd (hp cmd rfl).1 hn hi.self ho.1 (hp cmd rfl).2
  | timeRequest t it nv nm => exact q f.tc rfl
  | execRequest it => exact q f.tc rfl
  | value cmd =>
    obtain ⟨v, m, i, d, e⟩ := (dataOnly_valueArrives f cmd ho.1).h
    exact q _ (congrArg Core.dynamicJoining e)
  | message cmd =>
    obtain ⟨v, m, i, d, e⟩ := (dataOnly_messageArrives f cmd ho.1).h
    exact q _ (congrArg Core.dynamicJoining e)
  | setTime p v =>
    show Calm f (f.step 0 (.setTime p v)).1
    simp only [Fed.step]
    split
    · exact q f.tc rfl
    · exact q _ rfl
  | setFlag o v => exact q _ (by cases o <;> rfl)
  | setMaxIterations v => exact q _ rfl

/-- the item does not tell the federate to join a running federation -/
def Item.calm (i : Item) : Prop := ∀ cmd a, i = .other (.msg cmd) a → ¬ joins cmd

theorem calm_take {last : FedState} {c : Cb} {I O T : List Call} (h : Good last c I O T) (i : Item) (hi : i.sane c.fed.tc.self)
    (hj : Item.calm i) : Calm c.fed (c.take i).1.fed := by
  cases i with
  | other o a => exact calm_other c.fed h.inv o hi.1 (fun cmd e => ⟨hi.2.2 cmd e, hj cmd a (by rw [e])⟩)
  | own k nv nm a =>
    unfold take
    dsimp only
    cases hk : c.pend[k]? with
    | none => exact fun hs hd => ⟨hd, fun k => absurd k hs⟩
    | some o => exact calm_own c.fed nv nm o (h.own o (List.mem_of_getElem? hk)) h.inv.self

/-- the calls report the right mode -/
def rightMode : Call → Prop
  | .init m _ => m = .initializing
  | .operate _ _ m _ => m = .executing
  | _ => True

structure Moded (c : Cb) : Prop where
  join : c.fed.state = .created ∨ c.fed.state = .initializing → c.fed.tc.dynamicJoining = false
  app : c.fed.state = .executing → c.app = .executing
  modes : ∀ x ∈ c.told, rightMode x
  first : times c.told = [] ∨ ∃ l, times c.told = 0 :: l

theorem times_append (a b : List Call) : times (a ++ b) = times a ++ times b := List.filterMap_append

theorem times_init (I : List Call) (h : ∀ x ∈ I, x.isInit = true) : times I = [] := by
  unfold times
  rw [List.filterMap_eq_nil_iff]
  intro x hx
  have := h x hx
  cases x <;> first | rfl | cases this

theorem first_append {a b : List Call} (h : times a ≠ []) (h1 : times a = [] ∨ ∃ l, times a = 0 :: l) :
    times (a ++ b) = [] ∨ ∃ l, times (a ++ b) = 0 :: l := by
  rcases h1 with h1 | ⟨l, h1⟩
  · exact absurd h1 h
  · exact Or.inr ⟨l ++ times b, by rw [times_append, h1]; rfl⟩

theorem moded_turn {last : FedState} {c : Cb} {I O T : List Call} (h : Good last c I O T) (hm : Moded c) (i : Item)
    (hi : i.sane c.fed.tc.self) (hj : Item.calm i) (ie : Bool) (hie : ie = true → dead c.fed.state) :
    Moded (turn ie (last, c) i).2 := by
  obtain ⟨m, k⟩ := take_ok h i hi
  have hc := calm_take h i hi hj
  have hdd := (good_turn h i hi ie hie).2.2
  rw [turn_eq]
  dsimp only
  have hfed : (turn ie (last, c) i).2.fed = (c.take i).1.fed := by
    rw [turn_eq]
    dsimp only
    unfold conclude returnResult proceed
    repeat' (first | split | rfl)
    all_goals try rfl
    all_goals (unfold opCall; dsimp only; split <;> rfl)
  rw [hfed] at hdd
  generalize (c.take i).1 = d at k hc hdd
  generalize (c.take i).2 = p at k
  generalize i.ans = a
  have hmodes : ∀ x ∈ d.told, rightMode x := by rw [k.told]; exact hm.modes
  have hfirst := hm.first
  rw [← k.told] at hfirst
  have hok := k.ok
  by_cases hd : dead d.fed.state
  · have hp : p ≠ .iterating ∧ p ≠ .nextStep := by
      generalize d.fed.state = s' at hok hd
      generalize d.fed.mode = m' at hok
      cases hok with
      | quiet p h => rcases h with h | h | h <;> simp [h]
      | init => rcases hd with h | h | h <;> cases h
      | iter h => rw [h] at hd; rcases hd with h | h | h <;> cases h
      | enter => rcases hd with h | h | h <;> cases h
      | grant _ h => rw [h] at hd; rcases hd with h | h | h <;> cases h
      | err => simp
      | term => simp
      | fin => simp
    have hq : (if ie then MPR.errorResult else p) ≠ .iterating ∧ (if ie then MPR.errorResult else p) ≠ .nextStep := by
      cases ie
      · exact hp
      · rw [if_pos rfl]; exact ⟨(fun k => nomatch k), (fun k => nomatch k)⟩
    generalize (if ie then MPR.errorResult else p) = q at hq
    have key : ∀ (ap : Mode) (l : List Call), (∀ x ∈ l, rightMode x) → times l = [] → Moded { d with app := ap, told := d.told ++ l } := by
      intro ap l hl hl2
      refine ⟨?_, ?_, ?_, ?_⟩
      · intro e
        rcases hd with x | x | x <;> rcases e with e | e <;> exact absurd (x.symm.trans e) (by decide)
      · intro e
        rcases hd with x | x | x <;> exact absurd (x.symm.trans e) (by decide)
      · intro x hx
        rcases List.mem_append.1 hx with hx | hx
        · exact hmodes x hx
        · exact hl x hx
      · show times (d.told ++ l) = [] ∨ ∃ l', times (d.told ++ l) = 0 :: l'
        rw [times_append, hl2, List.append_nil]; exact hfirst
    have same : Moded d := by
      have := key d.app [] (fun x hx => by cases hx) rfl
      rwa [List.append_nil] at this
    unfold conclude
    split
    · unfold returnResult
      split
      · split
        · exact key _ [.finalize] (fun x hx => by have : x = .finalize := by simpa using hx
                                                  rw [this]; trivial) rfl
        · exact same
      · split
        · split
          · exact key _ [.error] (fun x hx => by have : x = .error := by simpa using hx
                                                 rw [this]; trivial) rfl
          · exact same
        · rw [proceed_none _ _ _ _ hq]; exact same
    · exact same
  have hcd : ¬ dead c.fed.state := fun e => hd (hdd e)
  have hie' : ie = false := by
    cases ie
    · rfl
    · exact absurd (hie rfl) hcd
  subst hie'
  simp only [Bool.false_eq_true, if_false]
  have hT : last = c.fed.state ∧ T = [] := by
    cases h.at_ with
    | created e hl _ _ hT => exact ⟨hl.trans e.symm, hT⟩
    | init e hl _ _ hT => exact ⟨hl.trans e.symm, hT⟩
    | exec e hl _ _ hT => exact ⟨hl.trans e.symm, hT⟩
    | err e => exact absurd (Or.inl e) hcd
    | term e => exact absurd (Or.inr (Or.inl e)) hcd
    | fin e => exact absurd (Or.inr (Or.inr e)) hcd
  obtain ⟨hl, hT⟩ := hT
  subst hT
  have htold : d.told = I ++ O := by rw [k.told, h.told]; simp
  have htimes : times d.told = times O := by rw [htold, times_append, times_init I h.shape.hI]; rfl
  have hinit : c.fed.state = .created ∨ c.fed.state = .initializing → d.fed.state = .initializing → Moded (d.initCall a) := by
    intro e1 e2
    refine ⟨fun _ => (hc ?_ (hm.join e1)).1, fun e => absurd (e2.symm.trans e) (by decide), ?_, ?_⟩
    · intro e; rcases e1 with x | x <;> exact absurd (x.symm.trans e) (by decide)
    · intro x hx
      rcases List.mem_append.1 hx with hx | hx
      · exact hmodes x hx
      · have : x = .init .initializing a.init := by simpa using hx
        rw [this]; rfl
    · show times (d.told ++ [.init .initializing a.init]) = [] ∨ ∃ l, times (d.told ++ [.init .initializing a.init]) = 0 :: l
      rw [times_append, show times [.init .initializing a.init] = [] from rfl, List.append_nil]
      exact hfirst
  have hop : ∀ it, d.fed.state = .executing → (if d.fed.tc.granted = 0 ∧ it = false then Mode.executing else d.app) = .executing →
      (times d.told = [] → d.fed.tc.granted = 0) → Moded (d.opCall it a) := by
    intro it e1 e2 e3
    have hf : ∀ w : Call, w.time = some d.fed.tc.granted →
        (times (d.told ++ [w]) = [] ∨ ∃ l, times (d.told ++ [w]) = 0 :: l) := by
      intro w hw
      by_cases e : times d.told = []
      · refine Or.inr ⟨[], ?_⟩
        rw [times_append, e, times, List.filterMap_cons, hw, e3 e]; rfl
      · exact first_append e hfirst
    unfold opCall
    dsimp only
    rw [e2]
    have hne : ¬ (d.fed.state = .created ∨ d.fed.state = .initializing) := by rw [e1]; decide
    split
    · refine ⟨fun e => absurd e hne, fun _ => rfl, ?_, hf _ rfl⟩
      intro x hx
      rcases List.mem_append.1 hx with hx | hx
      · exact hmodes x hx
      · have : x = .stop d.fed.tc.granted := by simpa using hx
        rw [this]; trivial
    · refine ⟨fun e => absurd e hne, fun _ => rfl, ?_, hf _ rfl⟩
      intro x hx
      rcases List.mem_append.1 hx with hx | hx
      · exact hmodes x hx
      · have : x = .operate d.fed.tc.granted it .executing a.op := by simpa using hx
        rw [this]; rfl
  have hquiet : d.fed.state = c.fed.state → (p ≠ .iterating ∧ p ≠ .nextStep) → Moded (conclude last d p a).2 := by
    intro e hp
    have := conclude_quiet d p a hp
    rw [e, ← hl] at this
    rw [this]
    refine ⟨?_, ?_, hmodes, hfirst⟩
    · intro x
      rw [e] at x
      refine (hc ?_ (hm.join x)).1
      intro e'; rw [e'] at x; rcases x with x | x <;> cases x
    · intro x
      show d.app = _
      rw [k.app]; exact hm.app (e ▸ x)
  generalize hds : d.fed.state = s' at hok hd
  generalize hcs : c.fed.state = s at hok hcd
  generalize d.fed.mode = m' at hok
  cases hok with
  | quiet p h1 => exact hquiet (hds.trans hcs.symm) (by rcases h1 with h | h | h <;> simp [h])
  | init _ e hm =>
    subst e
    have e : conclude last d .nextStep a = (.initializing, d.initCall a) := by
      simp [conclude, MPR.returnable, returnResult, proceed, hds, hl, hcs]
    rw [e]; exact hinit (Or.inl hcs) hds
  | iter e =>
    subst e
    have e : conclude last d .iterating a = (.initializing, d.initCall a) := by
      simp [conclude, MPR.returnable, returnResult, proceed, hds, hl, hcs]
    rw [e]; exact hinit (Or.inr hcs) hds
  | enter e =>
    subst e
    have e : conclude last d .nextStep a = (.executing, d.opCall false a) := by
      simp [conclude, MPR.returnable, returnResult, proceed, hds, hl, hcs]
    have h0 := (hc (by rw [hcs]; decide) (hm.join (Or.inr hcs))).2 hds
    rw [e]; exact hop false hds (by rw [h0]; rfl) (fun _ => h0)
  | grant p e _ h3 =>
    subst e
    have happ : d.app = .executing := k.app.trans (hm.app hcs)
    have hne : times d.told ≠ [] := by
      rw [htimes]
      cases h.at_ with
      | exec _ _ _ hO _ _ =>
        cases O with
        | nil => exact absurd rfl hO
        | cons x O =>
          have := h.shape.hO x (by simp)
          obtain ⟨t, ht⟩ : ∃ t, x.time = some t := by
            cases x <;> first | exact ⟨_, rfl⟩ | cases this
          intro e
          rw [times, List.filterMap_cons, ht] at e
          cases e
      | created e => rw [e] at hcs; cases hcs
      | init e => rw [e] at hcs; cases hcs
      | err e => rw [e] at hcs; cases hcs
      | term e => rw [e] at hcs; cases hcs
      | fin e => rw [e] at hcs; cases hcs
    have hmo : ∀ it : Bool, (if d.fed.tc.granted = 0 ∧ it = false then Mode.executing else d.app) = .executing := by
      intro it; rw [happ]; split <;> rfl
    rcases h3 with h3 | h3 | h3
    · have e : conclude last d p a = (.executing, d.opCall false a) := by
        subst h3; simp [conclude, MPR.returnable, returnResult, proceed, hds, hl, hcs]
      rw [e]; exact hop false hds (hmo _) (fun k => absurd k hne)
    · have e : conclude last d p a = (.executing, d.opCall true a) := by
        subst h3; simp [conclude, MPR.returnable, returnResult, proceed, hds, hl, hcs]
      rw [e]; exact hop true hds (hmo _) (fun k => absurd k hne)
    · exact hquiet (hds.trans hcs.symm) (by rw [h3]; simp)
  | err => exact absurd (Or.inl rfl) hd
  | term => exact absurd (Or.inr (Or.inl rfl)) hd
  | fin => exact absurd (Or.inr (Or.inr rfl)) hd

theorem moded_turns {last : FedState} {c : Cb} {I O T : List Call} (h : Good last c I O T) (hm : Moded c) (is : List Item)
    (hi : ∀ i ∈ is, i.sane c.fed.tc.self) (hj : ∀ i ∈ is, Item.calm i) (ie : Bool) (hie : ie = true → dead c.fed.state) :
    Moded (is.foldl (turn ie) (last, c)).2 := by
  induction is generalizing last c I O T with
  | nil => exact hm
  | cons i is ih =>
    obtain ⟨⟨I', O', T', h1⟩, h2, h3⟩ := good_turn h i (hi i (by simp)) ie hie
    exact ih h1 (moded_turn h hm i (hi i (by simp)) (hj i (by simp)) ie hie) (fun j hj' => h2.symm ▸ hi j (by simp [hj']))
      (fun j hj' => hj j (by simp [hj'])) (fun e => h3 (hie e))

theorem moded_run {c : Cb} {I O T : List Call} (h : Good c.fed.state c I O T) (hm : Moded c) (es : List Ev) (hi : Sane c es)
    (hj : NotJoining es) : Moded (run c es) := by
  induction es generalizing c I O T with
  | nil => exact hm
  | cons e es ih =>
    obtain ⟨⟨I', O', T', h1⟩, h2⟩ := good_step h e (hi e (by simp))
    refine ih h1 ?_ (fun x hx i j => by rw [h2]; exact hi x (by simp [hx]) i j) (fun x hx => hj x (by simp [hx]))
    cases e with
    | enterInit => exact ⟨hm.join, hm.app, hm.modes, hm.first⟩
    | commands is =>
      unfold Cb.step processing
      dsimp only
      split
      · exact hm
      · exact moded_turns h hm is (hi (.commands is) (by simp)) (hj (.commands is) (by simp)) (c.fed.state = .errored) (fun e => Or.inl (of_decide_eq_true e))

theorem moded_fresh {c : Cb} (h : Fresh c) : Moded c := by
  obtain ⟨⟨self, a, b, d, hs, e⟩, h1, h2, h3, h4, h5⟩ := h
  refine ⟨fun _ => by rw [e]; rfl, (fun k => by rw [e] at k; cases k), (by rw [h3]; intro x hx; cases hx), Or.inl (by rw [h3]; rfl)⟩

end Callback
end Verif
