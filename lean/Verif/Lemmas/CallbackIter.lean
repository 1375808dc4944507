import Verif.Lemmas.CallbackInv
/-! A callback federate is told of an iteration only if it asked for one (C60). -/
namespace Verif
namespace Callback
open Fed TC Cb

/-- the command keeps the kind of request, and says "iterating" only for requests that allow it -/
def Kept (it : IterReq) (r : Fed × MPR) : Prop :=
  r.1.state = .executing → r.1.tc.iterating = it ∧ (r.2 = .iterating → it = .forceIteration ∨ it = .iterateIfNeeded)

theorem kept_process (f : Fed) (cmd : Msg) (hs : f.state = .executing) (ho : ¬ ownExec f cmd) (hid : f.tc.self ≠ parentBroker) :
    Kept f.tc.iterating (f.process cmd) := by
  intro he
  cases process_effect f cmd hs ho hid with
  | quiet _ _ hc _ hp _ =>
    exact ⟨congrArg Core.iterating hc, fun k => by rw [k] at hp; rcases hp with h | h | h <;> cases h⟩
  | attempt g trig _ hg _ _ ht hp _ _ =>
    have e : g.iterating = f.tc.iterating := congrArg Core.iterating hg
    rw [ht, hp, ← e]
    rcases checkTimeGrant_outcome g trig with ⟨h1, _, _, h4⟩ | ⟨h1, h2⟩ | ⟨h1, _, _, _, _, h4⟩ | ⟨h1, h, _, _, _, h4⟩
    · exact ⟨congrArg Core.iterating h4, fun k => by rw [h1] at k; cases k⟩
    · exact ⟨congrArg Core.iterating h2, fun k => by rw [h1] at k; cases k⟩
    · exact ⟨congrArg Core.iterating h4, fun k => by rw [h1] at k; cases k⟩
    · refine ⟨?_, fun _ => h⟩
      split at h4 <;> exact congrArg Core.iterating h4
  | forced _ _ _ _ hc _ _ hp _ => exact ⟨congrArg Core.iterating hc, fun k => by rw [hp] at k; cases k⟩
  | exit hl _ => rw [he] at hl; rcases hl with h | h | h <;> cases h

theorem kept_request (f : Fed) (t : Time) (it : IterReq) (nv nm : Time) (hs : f.state = .executing) (hid : f.tc.self ≠ parentBroker) :
    Kept it (f.request t it nv nm) := by
  obtain ⟨_, _, _, h4, h5, _⟩ := timeRequest_fields f.tc t it nv nm
  have := kept_process { f with tc := f.tc.timeRequest t it nv nm, mode := false }
    { action := .timeCheck, source := f.tc.self, dest := f.tc.self, actionTime := t } hs (fun k => nomatch k.1) (by rw [h4]; exact hid)
  rw [show ({ f with tc := f.tc.timeRequest t it nv nm, mode := false } : Fed).tc.iterating = it from h5] at this
  exact this

theorem kept_other (f : Fed) (o : FedOp) (hs : f.state = .executing) (ho : o.sane f.tc.self) (hid : f.tc.self ≠ parentBroker) :
    Kept f.tc.iterating (otherResult f o) := by
  have q : ∀ (tc : TC), tc.iterating = f.tc.iterating → Kept f.tc.iterating ({ f with tc := tc }, .continueProcessing) :=
    fun tc e _ => ⟨e, fun k => nomatch k⟩
  cases o with
  | msg cmd => exact kept_process f cmd hs (fun h => ho.2 ⟨Or.inl h.1, h.2.1, h.2.2⟩) hid
  | timeRequest t it nv nm => exact q f.tc rfl
  | execRequest it => exact q f.tc rfl
  | value cmd =>
    obtain ⟨v, m, i, d, e⟩ := (dataOnly_valueArrives f cmd ho.1).h
    exact q _ (congrArg Core.iterating e)
  | message cmd =>
    obtain ⟨v, m, i, d, e⟩ := (dataOnly_messageArrives f cmd ho.1).h
    exact q _ (congrArg Core.iterating e)
  | setTime p v =>
    show Kept _ ((f.step 0 (.setTime p v)).1, _)
    simp only [Fed.step]
    split
    · exact q f.tc rfl
    · exact q _ rfl
  | setFlag o v => exact q _ (by cases o <;> rfl)
  | setMaxIterations v => exact q _ rfl

/-- a call that reports an iteration follows one that asked for it -/
def IterOk : List Call → Prop
  | x :: y :: l => (∀ t m a, y = .operate t true m a → wantsIter x) ∧ IterOk (y :: l)
  | _ => True

theorem iterOk_concat (l : List Call) (y : Call) (h : IterOk l)
    (hy : ∀ t m a, y = .operate t true m a → ∃ k x, l = k ++ [x] ∧ wantsIter x) : IterOk (l ++ [y]) := by
  induction l with
  | nil => trivial
  | cons x l ih =>
    cases l with
    | nil =>
      refine ⟨fun t m a e => ?_, trivial⟩
      obtain ⟨k, z, e1, e2⟩ := hy t m a e
      cases k with
      | nil => cases e1; exact e2
      | cons _ k => cases k <;> cases e1
    | cons z l =>
      refine ⟨h.1, ih h.2 (fun t m a e => ?_)⟩
      obtain ⟨k, w, e1, e2⟩ := hy t m a e
      cases k with
      | nil => cases e1
      | cons _ k => exact ⟨k, w, by injection e1, e2⟩

structure Iterated (c : Cb) : Prop where
  ok : IterOk c.told
  /-- while a request is under way: its kind is that of the last answer -/
  kind : c.fed.state = .executing → c.fed.mode = false → ∃ l x, c.told = l ++ [x] ∧ (c.fed.tc.iterating = .forceIteration ∨ c.fed.tc.iterating = .iterateIfNeeded → wantsIter x)
  first : ∀ y l, c.told = y :: l → ∀ t m a, y ≠ .operate t true m a

theorem after_time {w : Call} {t : Time} {it : IterReq} (h : Own.time t it = after w)
    (hi : it = .forceIteration ∨ it = .iterateIfNeeded) : wantsIter w := by
  cases w with
  | init m a => cases a with
    | none => cases h
    | some i => cases i <;> cases h
  | operate t' i m a => cases a with
    | none => cases h
    | some p =>
      obtain ⟨t', i⟩ := p
      cases i
      case noIterations => cases h; rcases hi with hi | hi <;> cases hi
      case forceIteration => trivial
      case iterateIfNeeded => trivial
      all_goals cases h
  | _ => cases h

theorem exec_pend {last : FedState} {c : Cb} {I O T : List Call} (h : Good last c I O T) (hs : c.fed.state = .executing) (o : Own) (ho : o ∈ c.pend) :
    ∃ l w, c.told = l ++ [w] ∧ w.isOperate = true ∧ o = after w := by
  cases h.at_ with
  | exec _ _ _ hO hT ha _ =>
    rcases ha with ⟨_, e, _⟩ | ⟨_, W', w, e1, e2, _⟩ | ⟨_, _, e, _⟩
    · rw [e] at ho; cases ho
    · have hw : w ∈ O := by
        obtain ⟨O', w', e3⟩ : ∃ O' w', O = O' ++ [w'] := ⟨O.dropLast, O.getLast hO, (List.dropLast_concat_getLast hO).symm⟩
        rw [e3, ← List.append_assoc] at e1
        have := (List.append_inj' e1 rfl).2
        cases this
        rw [e3]; simp
      refine ⟨W', w, ?_, h.shape.hO w hw, by rw [e2] at ho; simpa using ho⟩
      rw [h.told, hT, List.append_nil, e1]
    · rw [e] at ho; cases ho
  | created e => rw [e] at hs; cases hs
  | init e => rw [e] at hs; cases hs
  | err e => rw [e] at hs; cases hs
  | term e => rw [e] at hs; cases hs
  | fin e => rw [e] at hs; cases hs

/-- an executing federate that takes a command and goes on executing: either nothing is under way, or its kind is known -/
theorem take_kind {last : FedState} {c : Cb} {I O T : List Call} (h : Good last c I O T) (hI : Iterated c) (i : Item)
    (hi : i.sane c.fed.tc.self) (hs : c.fed.state = .executing) (hd : (c.take i).1.fed.state = .executing)
    (hm : (c.take i).1.fed.mode = false ∨ (c.take i).2 = .iterating) :
    (∃ l x, c.told = l ++ [x] ∧ ((c.take i).1.fed.tc.iterating = .forceIteration ∨ (c.take i).1.fed.tc.iterating = .iterateIfNeeded → wantsIter x)) ∧
    ((c.take i).2 = .iterating → (c.take i).1.fed.tc.iterating = .forceIteration ∨ (c.take i).1.fed.tc.iterating = .iterateIfNeeded) := by
  have hOk : ∀ {m m' : Bool} {p : MPR}, Ok .executing m .executing m' p → m' = false ∨ p = .iterating → m = false := by
    intro m m' p h k
    cases h with
    | quiet p h => rcases k with k | k
                   · exact k
                   · rw [k] at h; rcases h with h | h | h <;> cases h
    | grant _ _ h => exact h
    | iter h => cases h
    | enter h => cases h
  cases i with
  | other o a =>
    have hk := kept_other c.fed o hs hi.1 h.inv.self hd
    have ok := (other_ok c.fed h.inv o hi.1 (fun cmd e => hi.2.2 cmd e)).2
    rw [hs, show (otherResult c.fed o).1.state = .executing from hd] at ok
    obtain ⟨l, x, e1, e2⟩ := hI.kind hs (hOk ok hm)
    refine ⟨⟨l, x, e1, fun k => e2 ?_⟩, fun k => ?_⟩
    · rw [← hk.1]; exact k
    · show (otherResult c.fed o).1.tc.iterating = .forceIteration ∨ (otherResult c.fed o).1.tc.iterating = .iterateIfNeeded
      rw [hk.1]; exact hk.2 k
  | own k nv nm a =>
    unfold take at hd hm ⊢
    dsimp only at hd hm ⊢
    cases hk : c.pend[k]? with
    | none =>
      rw [hk] at hm
      dsimp only at hm ⊢
      refine ⟨hI.kind hs (hm.resolve_right (fun k => nomatch k)), fun k => nomatch k⟩
    | some o =>
      rw [hk] at hd hm
      dsimp only at hd hm ⊢
      have hmem : o ∈ c.pend := List.mem_of_getElem? hk
      obtain ⟨l, w, e1, e2, e3⟩ := exec_pend h hs o hmem
      have nope : isRequest o = false → False := by
        intro hr
        have := (own_ok c.fed h.inv nv nm o (h.own o hmem) (fun _ it e => by rw [e] at hr; cases hr)).2.2 hr
          (fun k => by rw [hs] at k; rcases k with k | k | k <;> cases k)
        rw [hd] at this
        rcases this with k | k | k <;> cases k
      cases o with
      | time t it =>
        have hq := kept_request c.fed t it nv nm hs h.inv.self hd
        refine ⟨⟨l, w, e1, fun k => after_time e3 ?_⟩, fun k => ?_⟩
        · rw [← hq.1]; exact k
        · show (c.fed.request t it nv nm).1.tc.iterating = .forceIteration ∨ (c.fed.request t it nv nm).1.tc.iterating = .iterateIfNeeded
          rw [hq.1]; exact hq.2 k
      | exec it =>
        cases w with
        | operate t i m a => cases a with
          | none => cases e3
          | some p => obtain ⟨t, i⟩ := p; cases i <;> cases e3
        | stop => cases e3
        | _ => cases e2
      | disconnect => exact absurd (nope rfl) id
      | localError => exact absurd (nope rfl) id

theorem conclude_told (last : FedState) (d : Cb) (q : MPR) (a : Ans) :
    (conclude last d q a).2.fed = d.fed ∧ ((conclude last d q a).2.told = d.told ∨
      ∃ y, (conclude last d q a).2.told = d.told ++ [y] ∧ ∀ t m b, y = .operate t true m b → q = .iterating ∧ last = .executing) := by
  have hop : ∀ it, (it = true → q = .iterating ∧ last = .executing) → (d.opCall it a).fed = d.fed ∧ ((d.opCall it a).told = d.told ∨
      ∃ y, (d.opCall it a).told = d.told ++ [y] ∧ ∀ t m b, y = .operate t true m b → q = .iterating ∧ last = .executing) := by
    intro it h
    unfold opCall
    dsimp only
    split
    · exact ⟨rfl, Or.inr ⟨_, rfl, (fun _ _ _ k => nomatch k)⟩⟩
    · refine ⟨rfl, Or.inr ⟨_, rfl, (fun _ _ _ k => h ?_)⟩⟩
      injection k
  unfold conclude returnResult proceed
  repeat' split
  all_goals first
    | exact ⟨rfl, Or.inl rfl⟩
    | exact ⟨rfl, Or.inr ⟨_, rfl, (fun _ _ _ k => nomatch k)⟩⟩
    | exact hop _ (fun k => ⟨of_decide_eq_true k, rfl⟩)
    | exact hop false (fun k => by cases k)

theorem iterated_turn {last : FedState} {c : Cb} {I O T : List Call} (h : Good last c I O T) (hI : Iterated c) (i : Item)
    (hi : i.sane c.fed.tc.self) (ie : Bool) (hie : ie = true → dead c.fed.state) :
    Iterated (turn ie (last, c) i).2 := by
  obtain ⟨m, k⟩ := take_ok h i hi
  have hkind := take_kind h hI i hi
  obtain ⟨c1, c2⟩ := conclude_told last (c.take i).1 (if ie then MPR.errorResult else (c.take i).2) i.ans
  rw [turn_eq]
  dsimp only
  -- executing mode stays or is entered
  have hstate : (c.take i).1.fed.state = .executing → (c.take i).1.fed.mode = false → c.fed.state = .executing := by
    intro e1 e2
    have hok := k.ok
    rw [e1, e2] at hok
    generalize hc : c.fed.state = s at hok
    generalize (c.take i).2 = p at hok
    cases hok with
    | quiet => rfl
  have hlast : last = .executing → c.fed.state = .executing ∨ c.fed.state = .terminating := by
    intro e
    cases h.at_ with
    | created _ hl => rw [hl] at e; cases e
    | init _ hl => rw [hl] at e; cases e
    | exec e => exact Or.inl e
    | err _ hl => rw [hl] at e; cases e
    | term e => exact Or.inr e
    | fin _ hl => rw [hl] at e; cases e
  have hlast' : ∀ y t mo b, y = Call.operate t true mo b → (∀ t m b, y = .operate t true m b → (if ie then MPR.errorResult else (c.take i).2) = .iterating ∧ last = .executing) →
      ∃ l x, c.told = l ++ [x] ∧ wantsIter x := by
    intro y t mo b e hy
    obtain ⟨e1, e2⟩ := hy t mo b e
    have hie' : ie = false := by
      cases ie
      · rfl
      · rw [if_pos rfl] at e1; cases e1
    rw [hie', if_neg (by simp)] at e1
    have hok := k.ok
    rw [e1] at hok
    have hex : c.fed.state = .executing ∧ (c.take i).1.fed.state = .executing := by
      rcases hlast e2 with x | x
      · rw [x] at hok
        generalize (c.take i).1.fed.state = s' at hok
        generalize (c.take i).1.fed.mode = m' at hok
        cases hok with
        | quiet _ h => rcases h with h | h | h <;> cases h
        | grant => exact ⟨x, rfl⟩
        | iter e => cases e
      · rw [x] at hok
        generalize (c.take i).1.fed.state = s' at hok
        generalize (c.take i).1.fed.mode = m' at hok
        cases hok with
        | quiet _ h => rcases h with h | h | h <;> cases h
        | grant _ e => cases e
        | iter e => cases e
    obtain ⟨⟨l, x, h1, h2⟩, h3⟩ := hkind hex.1 hex.2 (Or.inr e1)
    exact ⟨l, x, h1, h2 (h3 e1)⟩
  have htold := k.told
  refine ⟨?_, ?_, ?_⟩
  · rcases c2 with c2 | ⟨y, c2, hy⟩
    · rw [c2, htold]; exact hI.ok
    · rw [c2, htold]
      exact iterOk_concat _ y hI.ok (fun t m a e => hlast' y t m a e hy)
  · rw [c1]
    intro e1 e2
    have hc := hstate e1 e2
    obtain ⟨⟨l, x, h1, h2⟩, _⟩ := hkind hc e1 (Or.inl e2)
    -- nothing is called while the request is under way
    have hnone : (conclude last (c.take i).1 (if ie then MPR.errorResult else (c.take i).2) i.ans).2.told = (c.take i).1.told := by
      have hie' : ie = false := by
        cases ie
        · rfl
        · have := hie rfl; rw [hc] at this; rcases this with x | x | x <;> cases x
      subst hie'
      have hl : last = .executing := by
        cases h.at_ with
        | exec _ hl => exact hl
        | created e => rw [e] at hc; cases hc
        | init e => rw [e] at hc; cases hc
        | err e => rw [e] at hc; cases hc
        | term e => rw [e] at hc; cases hc
        | fin e => rw [e] at hc; cases hc
      have hok := k.ok
      rw [e1, e2, hc] at hok
      generalize hp : (c.take i).2 = p at hok
      have hq : p ≠ .iterating ∧ p ≠ .nextStep := by
        cases hok with
        | quiet _ h => rcases h with h | h | h <;> simp [h]
      have := conclude_quiet (c.take i).1 p i.ans hq
      rw [e1, ← hl] at this
      rw [if_neg (by simp), this]
    exact ⟨l, x, by rw [hnone, htold]; exact h1, h2⟩
  · rcases c2 with c2 | ⟨y, c2, hy⟩
    · rw [c2, htold]; exact hI.first
    · rw [c2, htold]
      intro z l e t m a ez
      cases hct : c.told with
      | nil =>
        rw [hct] at e
        cases e
        obtain ⟨l, x, h1, _⟩ := hlast' y t m a ez hy
        rw [hct] at h1
        cases l <;> cases h1
      | cons w l' =>
        rw [hct] at e
        cases e
        exact hI.first _ _ hct t m a ez

theorem iterated_turns {last : FedState} {c : Cb} {I O T : List Call} (h : Good last c I O T) (hm : Iterated c) (is : List Item)
    (hi : ∀ i ∈ is, i.sane c.fed.tc.self) (ie : Bool) (hie : ie = true → dead c.fed.state) :
    Iterated (is.foldl (turn ie) (last, c)).2 := by
  induction is generalizing last c I O T with
  | nil => exact hm
  | cons i is ih =>
    obtain ⟨⟨I', O', T', h1⟩, h2, h3⟩ := good_turn h i (hi i (by simp)) ie hie
    exact ih h1 (iterated_turn h hm i (hi i (by simp)) ie hie) (fun j hj' => h2.symm ▸ hi j (by simp [hj']))
      (fun e => h3 (hie e))

theorem iterated_run {c : Cb} {I O T : List Call} (h : Good c.fed.state c I O T) (hm : Iterated c) (es : List Ev) (hi : Sane c es) :
    Iterated (run c es) := by
  induction es generalizing c I O T with
  | nil => exact hm
  | cons e es ih =>
    obtain ⟨⟨I', O', T', h1⟩, h2⟩ := good_step h e (hi e (by simp))
    refine ih h1 ?_ (fun x hx i j => by rw [h2]; exact hi x (by simp [hx]) i j)
    cases e with
    | enterInit => exact ⟨hm.ok, hm.kind, hm.first⟩
    | commands is =>
      unfold Cb.step processing
      dsimp only
      split
      · exact hm
      · exact iterated_turns h hm is (hi (.commands is) (by simp)) (c.fed.state = .errored) (fun e => Or.inl (of_decide_eq_true e))

theorem iterated_fresh {c : Cb} (h : Fresh c) : Iterated c := by
  obtain ⟨⟨self, a, b, d, hs, e⟩, h1, h2, h3, h4, h5⟩ := h
  refine ⟨by rw [h3]; trivial, (fun k => by rw [e] at k; cases k), (fun y l k => by rw [h3] at k; cases k)⟩

theorem iterOk_split (l r : List Call) (x y : Call) (h : IterOk (l ++ x :: y :: r)) : ∀ t m a, y = .operate t true m a → wantsIter x := by
  induction l with
  | nil => exact h.1
  | cons z l ih =>
    refine ih ?_
    cases l with
    | nil => exact h.2
    | cons w l => exact h.2

end Callback
end Verif
