import Verif.Lemmas.CallbackFed
import Verif.Props.CallbackSpec
/-! The invariant of a callback federate (C60). -/
namespace Verif
namespace Callback
open Fed TC Cb

def dead (s : FedState) : Prop := s = .errored ∨ s = .terminating ∨ s = .finished

/-- what is sent after a call -/
def after : Call → Own
  | .init _ a => afterInit a
  | .operate _ _ _ a => afterOp a
  | _ => .disconnect

theorem after_asks (w : Call) : isRequest (after w) = w.asks := by
  cases w with
  | init m a => cases a with
    | none => rfl
    | some i => cases i <;> rfl
  | operate t i m a => cases a with
    | none => rfl
    | some p => obtain ⟨t, i⟩ := p; cases i <;> rfl
  | _ => rfl

def Own.sane (o : Own) : Prop := ∀ t it, o = .time t it → t ≤ maxVal

/-- bookkeeping while the federate is initializing or executing -/
def Acc (W : List Call) (m : Bool) (pend : List Own) (done : Nat) (x : Bool) : Prop :=
  (m = false ∧ pend = [] ∧ done = W.length ∧ ∀ w ∈ W, w.asks = true) ∨
  (m = true ∧ ∃ W' w, W = W' ++ [w] ∧ pend = [after w] ∧ done = W'.length ∧ ∀ w ∈ W', w.asks = true) ∨
  (x = true ∧ m = true ∧ pend = [] ∧ done = W.length ∧ ∀ w ∈ W, w.asks = true)

/-- the calls so far: `I` in initializing mode, `O` in executing mode -/
structure Shape (I O : List Call) (c : Cb) : Prop where
  hI : ∀ x ∈ I, x.isInit = true
  hO : ∀ x ∈ O, x.isOperate = true
  hOI : O ≠ [] → I ≠ []
  ask : ∀ x ∈ (I ++ O).dropLast, x.asks = true
  cnt : (I ++ O).length ≤ c.done + 1
  sorted : (times O).Pairwise (· ≤ ·)
  le : c.fed.state = .executing → ∀ t ∈ times O, t ≤ c.fed.tc.granted

/-- where the federate is; `T` is what was told of the end -/
inductive At (last : FedState) (c : Cb) (I O T : List Call) : Prop
  | created (h : c.fed.state = .created) (hl : last = .created) (hI : I = []) (hO : O = []) (hT : T = []) (hp : c.pend = []) (hn : c.done = 0)
  | init (h : c.fed.state = .initializing) (hl : last = .initializing) (hI : I ≠ []) (hO : O = []) (hT : T = [])
      (ha : Acc I c.fed.mode c.pend c.done false)
  | exec (h : c.fed.state = .executing) (hl : last = .executing) (hI : I ≠ []) (hO : O ≠ []) (hT : T = [])
      (ha : Acc (I ++ O) c.fed.mode c.pend c.done true) (hh : c.fed.mode = true → c.pend = [] → c.fed.tc.granted = maxVal)
  | err (h : c.fed.state = .errored) (hl : last = .errored) (hT : T = [.error])
  | term (h : c.fed.state = .terminating) (hl : last ≠ .finished) (hT : T = [] ∧ last ≠ .errored ∨ T = [.error])
  | fin (h : c.fed.state = .finished) (hl : last = .finished) (hT : T = [.finalize] ∨ T = [.error] ∨ T = [.error, .finalize])

structure Good (last : FedState) (c : Cb) (I O T : List Call) : Prop where
  inv : Fed.Inv c.fed
  own : ∀ o ∈ c.pend, Own.sane o
  told : c.told = I ++ (O ++ T)
  shape : Shape I O c
  at_ : At last c I O T

/-- the loop after a command has been processed -/
def conclude (last : FedState) (c : Cb) (p : MPR) (a : Ans) : FedState × Cb :=
  if p.returnable then (c.fed.state, c.returnResult last p a) else (last, c)

theorem turn_eq (ie : Bool) (s : FedState × Cb) (i : Item) :
    turn ie s i = conclude s.1 (s.2.take i).1 (if ie then .errorResult else (s.2.take i).2) i.ans := rfl

theorem Shape.mono {I O : List Call} {c d : Cb} (h : Shape I O c) (hd : c.done ≤ d.done)
    (hg : d.fed.state = .executing → c.fed.state = .executing ∧ c.fed.tc.granted ≤ d.fed.tc.granted ∨ O = []) : Shape I O d where
  hI := h.hI
  hO := h.hO
  hOI := h.hOI
  ask := h.ask
  cnt := Nat.le_trans h.cnt (by omega)
  sorted := h.sorted
  le := by
    intro e t ht
    rcases hg e with ⟨a, b⟩ | a
    · exact Int.le_trans (h.le a t ht) b
    · rw [a] at ht; cases ht

/-- the end of a federate that had not ended -/
theorem leave_ok (last : FedState) (c : Cb) (I O : List Call) (m m' : Bool) (s : FedState) (p : MPR) (a : Ans) (hs : ¬ dead s)
    (hl : last = s) (hk : Ok s m c.fed.state m' p) (hd : dead c.fed.state) (ht : c.told = I ++ (O ++ [])) :
    ∃ T, (conclude last c p a).2.told = I ++ (O ++ T) ∧ At (conclude last c p a).1 (conclude last c p a).2 I O T ∧
      (conclude last c p a).2.fed = c.fed ∧ (conclude last c p a).2.pend = c.pend ∧ (conclude last c p a).2.done = c.done := by
  subst hl
  have hs' : last ≠ .finished ∧ last ≠ .errored := ⟨fun e => hs (Or.inr (Or.inr e)), fun e => hs (Or.inl e)⟩
  generalize hg : c.fed.state = g at hk hd
  cases hk with
  | quiet => exact absurd hd hs
  | init => rcases hd with h | h | h <;> cases h
  | iter h => exact absurd hd hs
  | enter => rcases hd with h | h | h <;> cases h
  | grant => exact absurd hd hs
  | err =>
    have e : conclude last c .errorResult a = (.errored, { c with app := .error, told := c.told ++ [.error] }) := by
      simp [conclude, MPR.returnable, returnResult, hg, hs'.1, hs'.2]
    rw [e]
    exact ⟨[.error], by simp [ht], .err hg rfl rfl, rfl, rfl, rfl⟩
  | term =>
    have e : conclude last c .continueProcessing a = (last, c) := by simp [conclude, MPR.returnable]
    rw [e]
    exact ⟨[], ht, .term hg hs'.1 (Or.inl ⟨rfl, hs'.2⟩), rfl, rfl, rfl⟩
  | fin =>
    have e : conclude last c .halted a = (.finished, { c with app := .finalize, told := c.told ++ [.finalize] }) := by
      simp [conclude, MPR.returnable, returnResult, hg, hs'.1, hs'.2]
    rw [e]
    exact ⟨[.finalize], by simp [ht], .fin hg rfl (Or.inl rfl), rfl, rfl, rfl⟩

theorem proceed_none (c : Cb) (last : FedState) (p : MPR) (a : Ans) (h : p ≠ .iterating ∧ p ≠ .nextStep) : c.proceed last p a = c := by
  unfold proceed
  rw [if_neg (fun k => k.elim h.1 h.2)]

/-- a federate that has ended -/
theorem dead_ok (ie : Bool) (last : FedState) (b c : Cb) (I O T : List Call) (m m' : Bool) (p : MPR) (a : Ans) (hb : dead b.fed.state)
    (h : At last b I O T) (hk : Ok b.fed.state m c.fed.state m' p) (ht : c.told = I ++ (O ++ T)) :
    let q := if ie then MPR.errorResult else p
    dead c.fed.state ∧ ∃ T', (conclude last c q a).2.told = I ++ (O ++ T') ∧ At (conclude last c q a).1 (conclude last c q a).2 I O T' ∧
      (conclude last c q a).2.fed = c.fed ∧ (conclude last c q a).2.pend = c.pend ∧ (conclude last c q a).2.done = c.done := by
  intro q
  have hk' : dead c.fed.state ∧ (p ≠ .iterating ∧ p ≠ .nextStep) ∧
      (c.fed.state = b.fed.state ∨ (b.fed.state = .errored ∧ c.fed.state = .terminating) ∨ c.fed.state = .finished) ∧
      (c.fed.state = .finished → b.fed.state ≠ .finished → p.returnable = true) := by
    generalize b.fed.state = s at hk hb
    generalize c.fed.state = s' at hk
    cases hk with
    | quiet p h => exact ⟨hb, by rcases h with h | h | h <;> simp [h], Or.inl rfl, fun a b => absurd a b⟩
    | init h => subst_vars; rcases hb with h | h | h <;> cases h
    | iter h => subst_vars; rcases hb with h | h | h <;> cases h
    | enter h => subst_vars; rcases hb with h | h | h <;> cases h
    | grant _ h => subst_vars; rcases hb with h | h | h <;> cases h
    | err _ h h2 =>
      have : s = .errored := hb.elim id (fun k => k.elim (fun e => absurd e h2) (fun e => absurd e h))
      exact ⟨Or.inl rfl, by simp, Or.inl this.symm, fun k => by cases k⟩
    | term _ h h2 =>
      have : s = .errored := hb.elim id (fun k => k.elim (fun e => absurd e h2) (fun e => absurd e h))
      exact ⟨Or.inr (Or.inl rfl), by simp, Or.inr (Or.inl ⟨this, rfl⟩), fun k => by cases k⟩
    | fin => exact ⟨Or.inr (Or.inr rfl), by simp, Or.inr (Or.inr rfl), fun _ _ => rfl⟩
  obtain ⟨hd, hn, hc, hf⟩ := hk'
  refine ⟨hd, ?_⟩
  have hq : q ≠ .iterating ∧ q ≠ .nextStep := by
    show (if ie then MPR.errorResult else p) ≠ _ ∧ _
    cases ie
    · exact hn
    · rw [if_pos rfl]; exact ⟨(fun k => nomatch k), (fun k => nomatch k)⟩
  have hqf : c.fed.state = .finished → b.fed.state ≠ .finished → q.returnable = true := by
    intro k k2
    show (if ie then MPR.errorResult else p).returnable = true
    cases ie
    · exact hf k k2
    · rfl
  have nothing : c.returnResult last q a = c → At c.fed.state c I O T → At last c I O T →
      ∃ T', (conclude last c q a).2.told = I ++ (O ++ T') ∧ At (conclude last c q a).1 (conclude last c q a).2 I O T' ∧
      (conclude last c q a).2.fed = c.fed ∧ (conclude last c q a).2.pend = c.pend ∧ (conclude last c q a).2.done = c.done := by
    intro e h1 h2
    unfold conclude
    split
    · rw [e]; exact ⟨T, ht, h1, rfl, rfl, rfl⟩
    · exact ⟨T, ht, h2, rfl, rfl, rfl⟩
  have same : last = c.fed.state → c.returnResult last q a = c := by
    intro e
    unfold returnResult
    rw [if_neg (fun k => k.1 e), if_neg (fun k => k.1 e)]
    exact proceed_none _ _ _ _ hq
  have toFin : c.fed.state = .finished → last ≠ .finished → b.fed.state ≠ .finished →
      (T = [] ∧ last ≠ .errored ∨ T = [.error]) →
      ∃ T', (conclude last c q a).2.told = I ++ (O ++ T') ∧ At (conclude last c q a).1 (conclude last c q a).2 I O T' ∧
      (conclude last c q a).2.fed = c.fed ∧ (conclude last c q a).2.pend = c.pend ∧ (conclude last c q a).2.done = c.done := by
    intro k1 k2 k3 k4
    unfold conclude
    rw [if_pos (hqf k1 k3)]
    unfold returnResult
    rw [if_pos ⟨by rw [k1]; exact k2, k1⟩]
    by_cases hl : last = .errored
    · rw [if_neg (by simp [hl])]
      rcases k4 with ⟨_, e⟩ | e
      · exact absurd hl e
      · exact ⟨T, ht, .fin k1 k1 (Or.inr (Or.inl e)), rfl, rfl, rfl⟩
    · rw [if_pos hl]
      refine ⟨T ++ [.finalize], by simp [ht], .fin k1 k1 ?_, rfl, rfl, rfl⟩
      rcases k4 with ⟨e, _⟩ | e <;> rw [e] <;> simp
  cases h with
  | created h => rw [h] at hb; rcases hb with h | h | h <;> cases h
  | init h => rw [h] at hb; rcases hb with h | h | h <;> cases h
  | exec h => rw [h] at hb; rcases hb with h | h | h <;> cases h
  | err h hl hT =>
    rcases hc with e | ⟨_, e⟩ | e
    · rw [h] at e
      exact nothing (same (by rw [hl, e])) (.err e e hT) (.err e hl hT)
    · refine nothing ?_ (.term e (by rw [e]; decide) (Or.inr hT)) (.term e (by rw [hl]; decide) (Or.inr hT))
      unfold returnResult
      rw [if_neg (fun k => by rw [e] at k; cases k.2), if_neg (fun k => by rw [e] at k; cases k.2)]
      exact proceed_none _ _ _ _ hq
    · exact toFin e (by rw [hl]; decide) (by rw [h]; decide) (Or.inr hT)
  | term h hl hT =>
    rcases hc with e | ⟨e, _⟩ | e
    · rw [h] at e
      refine nothing ?_ (.term e (by rw [e]; decide) ?_) (.term e hl hT)
      · unfold returnResult
        rw [if_neg (fun k => by rw [e] at k; cases k.2), if_neg (fun k => by rw [e] at k; cases k.2)]
        exact proceed_none _ _ _ _ hq
      · rcases hT with ⟨x, _⟩ | x
        · exact Or.inl ⟨x, by rw [e]; decide⟩
        · exact Or.inr x
    · rw [h] at e; cases e
    · exact toFin e hl (by rw [h]; decide) hT
  | fin h hl hT =>
    have e : c.fed.state = .finished := by
      rcases hc with e | ⟨e, _⟩ | e
      · rw [e, h]
      · rw [h] at e; cases e
      · exact e
    exact nothing (same (by rw [hl, e])) (.fin e e hT) (.fin e hl hT)

theorem request_any (f : Fed) (hi : Fed.Inv f) (t : Time) (it : IterReq) (nv nm : Time) (ht : t ≤ maxVal) :
    StepOk f (f.request t it nv nm) := by
  by_cases hs : f.state = .executing
  · exact request_ok f hi hs t it nv nm ht
  obtain ⟨h1, h2, h3, h4, h5, _, _, h6⟩ := timeRequest_fields f.tc t it nv nm
  unfold request
  have hinv : Fed.Inv { f with tc := f.tc.timeRequest t it nv nm, mode := false } := by
    refine ⟨⟨?_, ?_, ?_, ?_⟩, ?_, fun k => absurd k hs⟩
    · show (f.tc.timeRequest t it nv nm).grantBase = (f.tc.timeRequest t it nv nm).granted
      rw [h1, h2]; exact hi.good.base
    · show (f.tc.timeRequest t it nv nm).granted ≤ _
      rw [h1]; exact hi.good.range
    · show 1 ≤ (f.tc.timeRequest t it nv nm).info.timeDelta ∧ 0 ≤ (f.tc.timeRequest t it nv nm).info.inputDelay ∧
        0 ≤ (f.tc.timeRequest t it nv nm).info.outputDelay ∧ 0 ≤ (f.tc.timeRequest t it nv nm).info.period
      rw [h3]; exact hi.good.delta
    · show 0 ≤ (f.tc.timeRequest t it nv nm).info.offset ∧ (f.tc.timeRequest t it nv nm).info.offset ≤ _
      rw [h3]; exact hi.good.offset
    · show (f.tc.timeRequest t it nv nm).self ≠ _
      rw [h4]; exact hi.self
  have := process_ok { f with tc := f.tc.timeRequest t it nv nm, mode := false }
    { action := .timeCheck, source := f.tc.self, dest := f.tc.self, actionTime := t } hinv ht (fun _ h => nomatch h.1)
  exact ⟨this.inv, fun a => absurd a hs, this.rank, this.ret, this.enter, this.self.trans h4⟩

theorem disconnect_dead (f : Fed) (h : ¬ dead f.state) (hself : f.tc.self ≠ parentBroker) :
    (f.process { action := .disconnect, source := f.tc.self, dest := f.tc.self }).1.state = .terminating := by
  have h1 : f.state ≠ .finished := fun e => h (Or.inr (Or.inr e))
  have h2 : f.state ≠ .terminating := fun e => h (Or.inr (Or.inl e))
  have hco : f.coordinator { action := .disconnect, source := f.tc.self, dest := f.tc.self } =
      ({ f with tc := f.tc.disconnect, state := .terminating }, .reprocessMessage,
        { action := .disconnect, source := f.tc.self, dest := parentBroker }) := by
    unfold coordinator
    simp [h1, h2]
  unfold process processN
  rw [hco]
  dsimp only
  rw [stateChange_same f { f with tc := f.tc.disconnect, state := .terminating } (Or.inr (Or.inl rfl))]
  simp only [Bool.false_eq_true, if_false]
  rw [if_pos]
  show parentBroker ≠ f.tc.disconnect.self
  rw [show f.tc.disconnect.self = f.tc.self from congrArg Core.self (core_disconnect f.tc).1]
  exact fun e => hself e.symm

theorem localError_dead (f : Fed) (h : ¬ dead f.state) :
    (f.process { action := .localError, source := f.tc.self, dest := f.tc.self }).1.state = .errored := by
  have h1 : f.state ≠ .finished := fun e => h (Or.inr (Or.inr e))
  have h2 : f.state ≠ .terminating := fun e => h (Or.inr (Or.inl e))
  have hco : f.coordinator { action := .localError, source := f.tc.self, dest := f.tc.self } =
      ({ f with tc := f.tc.localError, state := .errored }, .errorResult,
        { action := .localError, source := f.tc.self, dest := f.tc.self }) := by
    unfold coordinator
    simp [h1, h2]
  unfold process processN
  rw [hco]
  dsimp only
  rw [stateChange_same f { f with tc := f.tc.localError, state := .errored } (Or.inr (Or.inr (Or.inl rfl)))]
  rfl

theorem own_ok (f : Fed) (hi : Fed.Inv f) (nv nm : Time) (o : Own) (ho : Own.sane o)
    (hx : f.state = .executing → ∀ it, o ≠ .exec it) :
    StepOk f (ownResult f nv nm o) ∧
    Ok f.state (if isRequest o then false else f.mode) (ownResult f nv nm o).1.state (ownResult f nv nm o).1.mode (ownResult f nv nm o).2 ∧
    (isRequest o = false → ¬ dead f.state → dead (ownResult f nv nm o).1.state) := by
  have z : (0 : Int) ≤ maxVal := by decide
  cases o with
  | exec it =>
    refine ⟨?_, requestExec_ok' f it hi.self, fun k => by cases k⟩
    refine process_ok f _ hi ?_ (fun k => absurd rfl (hx k it))
    cases it <;> exact z
  | time t it => exact ⟨request_any f hi t it nv nm (ho t it rfl), request_ok' f t it nv nm hi.self (ho t it rfl), fun k => by cases k⟩
  | disconnect =>
    exact ⟨process_ok f _ hi z (fun _ k => nomatch k.1),
      process_ok' f _ ⟨by simp, by simp⟩ (fun k => nomatch k.1) hi.self z, fun _ k => Or.inr (Or.inl (disconnect_dead f k hi.self))⟩
  | localError =>
    exact ⟨process_ok f _ hi z (fun _ k => nomatch k.1),
      process_ok' f _ ⟨by simp, by simp⟩ (fun k => nomatch k.1) hi.self z, fun _ k => Or.inl (localError_dead f k)⟩

theorem halted_at {f : Fed} {r : Fed × MPR} (h : StepOk f r) (hs : r.1.state = .executing) (hp : r.2 = .halted) : r.1.tc.granted = maxVal := by
  refine (h.ret maxVal ?_).symm
  unfold returned
  rw [if_pos hs, hp]

theorem other_ok (f : Fed) (hi : Fed.Inv f) (o : FedOp) (ho : o.sane f.tc.self) (hp : ∀ cmd, o = .msg cmd → Plain cmd) :
    (Fed.Inv (otherResult f o).1 ∧ ((otherResult f o).1.state = .executing → (otherResult f o).2 = .halted → (otherResult f o).1.tc.granted = maxVal) ∧ (f.state = .executing → (otherResult f o).1.state = .executing → f.tc.granted ≤ (otherResult f o).1.tc.granted) ∧
      (otherResult f o).1.tc.self = f.tc.self) ∧
    Ok f.state f.mode (otherResult f o).1.state (otherResult f o).1.mode (otherResult f o).2 := by
  have hs := step_ok 0 f o hi ho
  have q : ∀ tc, Ok f.state f.mode ({ f with tc := tc } : Fed).state ({ f with tc := tc } : Fed).mode .continueProcessing :=
    fun tc => .quiet _ (Or.inl rfl)
  cases o with
  | msg cmd =>
    have hn : ¬ ownExec f cmd := fun h => ho.2 ⟨Or.inl h.1, h.2.1, h.2.2⟩
    exact ⟨⟨hs.inv, halted_at hs, hs.mono, hs.self⟩, process_ok' f cmd (hp cmd rfl) hn hi.self ho.1⟩
  | timeRequest t it nv nm => exact ⟨⟨hi, (fun _ k => nomatch k), fun _ _ => Int.le_refl _, rfl⟩, .quiet _ (Or.inl rfl)⟩
  | execRequest it => exact ⟨⟨hi, (fun _ k => nomatch k), fun _ _ => Int.le_refl _, rfl⟩, .quiet _ (Or.inl rfl)⟩
  | value cmd => exact ⟨⟨hs.inv, (fun _ k => nomatch k), hs.mono, hs.self⟩, q _⟩
  | message cmd => exact ⟨⟨hs.inv, (fun _ k => nomatch k), hs.mono, hs.self⟩, q _⟩
  | setTime p v =>
    refine ⟨⟨hs.inv, (fun _ k => nomatch k), hs.mono, hs.self⟩, ?_⟩
    show Ok _ _ (f.step 0 (.setTime p v)).1.state _ _
    simp only [otherResult, Fed.step]
    split
    · exact .quiet _ (Or.inl rfl)
    · exact q _
  | setFlag o v => exact ⟨⟨hs.inv, (fun _ k => nomatch k), hs.mono, hs.self⟩, q _⟩
  | setMaxIterations v => exact ⟨⟨hs.inv, (fun _ k => nomatch k), hs.mono, hs.self⟩, q _⟩

/-- what taking a command does -/
structure Taken (c d : Cb) (p : MPR) (m : Bool) : Prop where
  inv : Fed.Inv d.fed
  mono : c.fed.state = .executing → d.fed.state = .executing → c.fed.tc.granted ≤ d.fed.tc.granted
  self : d.fed.tc.self = c.fed.tc.self
  told : d.told = c.told
  stop : d.stop = c.stop
  app : d.app = c.app
  own : ∀ o ∈ d.pend, o ∈ c.pend
  done : c.done ≤ d.done
  same : c.pend = [] → d.done = c.done
  ok : Ok c.fed.state m d.fed.state d.fed.mode p
  halt : d.fed.state = .executing → p = .halted → d.fed.tc.granted = maxVal
  idle : m = true → d.pend = [] → ¬ dead c.fed.state → ¬ dead d.fed.state → c.fed.mode = true ∧ c.pend = []
  acc : ∀ W x, ¬ dead c.fed.state → Acc W c.fed.mode c.pend c.done x → dead d.fed.state ∨ Acc W m d.pend d.done x

theorem take_ok {last : FedState} {c : Cb} {I O T : List Call} (h : Good last c I O T) (i : Item) (hi : i.sane c.fed.tc.self) :
    ∃ m, Taken c (c.take i).1 (c.take i).2 m := by
  cases i with
  | other o a =>
    obtain ⟨⟨h1, h5, h2, h3⟩, h4⟩ := other_ok c.fed h.inv o hi.1 (fun cmd e => hi.2.2 cmd e)
    exact ⟨c.fed.mode, h1, h2, h3, rfl, rfl, rfl, fun _ k => k, Nat.le_refl _, fun _ => rfl, h4, h5, fun a b _ _ => ⟨a, b⟩, fun _ _ _ k => Or.inr k⟩
  | own k nv nm a =>
    unfold take
    dsimp only
    cases hk : c.pend[k]? with
    | none =>
      exact ⟨c.fed.mode, h.inv, fun _ _ => Int.le_refl _, rfl, rfl, rfl, rfl, fun _ k => k, Nat.le_refl _, fun _ => rfl, .quiet _ (Or.inl rfl),
        (fun _ k => nomatch k), fun a b _ _ => ⟨a, b⟩, fun _ _ _ k => Or.inr k⟩
    | some o =>
      dsimp only
      have hmem : o ∈ c.pend := List.mem_of_getElem? hk
      have hx : c.fed.state = .executing → ∀ it, o ≠ .exec it := by
        intro hs it e
        subst e
        cases h.at_ with
        | exec _ _ _ hO _ ha _ =>
          rcases ha with ⟨_, e, _⟩ | ⟨_, W', w, e1, e2, _⟩ | ⟨_, _, e, _⟩
          · rw [e] at hmem; cases hmem
          · rw [e2] at hmem
            have hw : w ∈ O := by
              obtain ⟨O', w', e3⟩ : ∃ O' w', O = O' ++ [w'] := ⟨O.dropLast, O.getLast hO, (List.dropLast_concat_getLast hO).symm⟩
              rw [e3, ← List.append_assoc] at e1
              have := (List.append_inj' e1 rfl).2
              cases this
              rw [e3]; simp
            have hop := h.shape.hO w hw
            have : Own.exec it = after w := by simpa using hmem
            cases w with
            | operate t i m a =>
              cases a with
              | none => cases this
              | some p => obtain ⟨t, i⟩ := p; cases i <;> cases this
            | stop t => cases this
            | _ => cases hop
          · rw [e] at hmem; cases hmem
        | created e => rw [e] at hs; cases hs
        | init e => rw [e] at hs; cases hs
        | err e => rw [e] at hs; cases hs
        | term e => rw [e] at hs; cases hs
        | fin e => rw [e] at hs; cases hs
      obtain ⟨h1, h2, h3⟩ := own_ok c.fed h.inv nv nm o (h.own o hmem) hx
      refine ⟨_, h1.inv, h1.mono, h1.self, rfl, rfl, rfl, fun x hx => List.mem_of_mem_eraseIdx hx, by simp, (fun e => by rw [e] at hmem; cases hmem), h2, halted_at h1, ?_, ?_⟩
      · intro a _ b d
        cases hr : isRequest o
        · exact absurd (h3 hr b) d
        · rw [hr] at a; cases a
      intro W x hd ha
      cases hr : isRequest o
      · exact Or.inl (h3 hr hd)
      · refine Or.inr ?_
        rcases ha with ⟨_, e, _⟩ | ⟨_, W', w, e1, e2, e3, e4⟩ | ⟨_, _, e, _⟩
        · rw [e] at hmem; cases hmem
        · rw [e2] at hk
          have hk0 : k = 0 ∧ o = after w := by
            cases k with
            | zero => exact ⟨rfl, by simpa using hk.symm⟩
            | succ k => simp at hk
          refine Or.inl ⟨rfl, ?_, ?_, ?_⟩
          · show c.pend.eraseIdx k = []
            rw [e2, hk0.1]; rfl
          · show c.done + _ = _
            rw [e3, e1]; simp
          · rw [e1]
            intro y hy
            rcases List.mem_append.1 hy with hy | hy
            · exact e4 y hy
            · have : y = w := by simpa using hy
              rw [this, ← after_asks, ← hk0.2]; exact hr
        · rw [e] at hmem; cases hmem

theorem sane_init (a : Option IterReq) : Own.sane (afterInit a) := by
  intro t it e
  cases a with
  | none => cases e
  | some i => cases i <;> cases e

theorem sane_op (a : Ans) (h : a.fits) : Own.sane (afterOp a.op) := by
  intro t it e
  cases hop : a.op with
  | none => rw [hop] at e; cases e
  | some p =>
    obtain ⟨t', i⟩ := p
    rw [hop] at e
    cases i <;> cases e <;> exact h _ _ hop

theorem initCall_good (d : Cb) (I : List Call) (a : Ans) (hinv : Fed.Inv d.fed) (hs : d.fed.state = .initializing) (hm : d.fed.mode = true)
    (hp : d.pend = []) (hn : d.done = I.length) (hask : ∀ x ∈ I, x.asks = true) (hI : ∀ x ∈ I, x.isInit = true)
    (ht : d.told = I) : Good .initializing (d.initCall a) (I ++ [.init .initializing a.init]) [] [] := by
  have hA : Acc (I ++ [.init .initializing a.init]) true [afterInit a.init] d.done false :=
    Or.inr (Or.inl ⟨rfl, I, _, rfl, rfl, hn, hask⟩)
  refine ⟨hinv, ?_, ?_, ⟨?_, (fun x k => by cases k), fun k => absurd rfl k, ?_, ?_, List.Pairwise.nil, ?_⟩, .init hs rfl (by simp) rfl rfl ?_⟩
  · intro o ho
    have : o = afterInit a.init := by simpa [initCall, hp] using ho
    rw [this]; exact sane_init _
  · simp [initCall, ht]
  · intro x hx
    rcases List.mem_append.1 hx with hx | hx
    · exact hI x hx
    · have : x = .init .initializing a.init := by simpa using hx
      rw [this]; rfl
  · intro x hx
    simp only [List.append_nil, List.dropLast_concat] at hx
    exact hask x hx
  · show _ ≤ d.done + 1
    simp [hn]
  · intro k; exact absurd (hs.symm.trans k) (by decide)
  · show Acc _ d.fed.mode (d.pend ++ [afterInit a.init]) d.done false
    rw [hm, hp]; exact hA

theorem opCall_good (d : Cb) (I O : List Call) (it : Bool) (a : Ans) (ha : a.fits) (hinv : Fed.Inv d.fed) (hs : d.fed.state = .executing)
    (hm : d.fed.mode = true) (hp : d.pend = []) (hn : d.done = (I ++ O).length) (hask : ∀ x ∈ I ++ O, x.asks = true)
    (hI : ∀ x ∈ I, x.isInit = true) (hO : ∀ x ∈ O, x.isOperate = true) (hne : I ≠ [])
    (hsort : (times O).Pairwise (· ≤ ·)) (hle : ∀ t ∈ times O, t ≤ d.fed.tc.granted)
    (ht : d.told = I ++ O) : ∃ w, Good .executing (d.opCall it a) I (O ++ [w]) [] := by
  obtain ⟨w, ap, e, hw, hwt, hsa⟩ : ∃ w ap, d.opCall it a = { d with app := ap, told := d.told ++ [w], pend := d.pend ++ [after w] } ∧
      w.isOperate = true ∧ w.time = some d.fed.tc.granted ∧ Own.sane (after w) := by
    unfold opCall
    dsimp only
    split
    · exact ⟨.stop d.fed.tc.granted, _, rfl, rfl, rfl, (fun t i k => by cases k)⟩
    · exact ⟨_, _, rfl, rfl, rfl, sane_op a ha⟩
  have htm : times (O ++ [w]) = times O ++ [d.fed.tc.granted] := by
    unfold times
    rw [List.filterMap_append]
    simp [hwt]
  rw [e]
  refine ⟨w, hinv, ?_, ?_, ⟨hI, ?_, fun _ => hne, ?_, ?_, ?_, ?_⟩, .exec hs rfl hne (by simp) rfl ?_ (fun _ k => by simp at k)⟩
  · intro o ho
    have : o = after w := by simpa [hp] using ho
    rw [this]; exact hsa
  · simp [ht]
  · intro x hx
    rcases List.mem_append.1 hx with hx | hx
    · exact hO x hx
    · have : x = w := by simpa using hx
      rw [this]; exact hw
  · intro x hx
    rw [← List.append_assoc, List.dropLast_concat] at hx
    exact hask x hx
  · show _ ≤ d.done + 1
    rw [hn]; simp; omega
  · rw [htm, List.pairwise_append]
    refine ⟨hsort, List.pairwise_singleton _ _, ?_⟩
    intro x hx y hy
    have : y = d.fed.tc.granted := by simpa using hy
    rw [this]; exact hle x hx
  · intro _ t k
    rw [htm] at k
    rcases List.mem_append.1 k with k | k
    · exact hle t k
    · have : t = d.fed.tc.granted := by simpa using k
      rw [this]; exact Int.le_refl _
  · show Acc _ d.fed.mode (d.pend ++ [after w]) d.done true
    rw [hm, hp, ← List.append_assoc]
    exact Or.inr (Or.inl ⟨rfl, I ++ O, w, rfl, rfl, hn, hask⟩)

/-- a result that calls nothing -/
theorem conclude_quiet (d : Cb) (p : MPR) (a : Ans) (h : p ≠ .iterating ∧ p ≠ .nextStep) :
    conclude d.fed.state d p a = (d.fed.state, d) := by
  unfold conclude returnResult
  simp only [ne_eq, not_true_eq_false, false_and, if_false, proceed_none _ _ _ _ h]
  split <;> rfl

theorem Acc.waiting {W : List Call} {pend : List Own} {done : Nat} {x : Bool} (h : Acc W false pend done x) :
    pend = [] ∧ done = W.length ∧ ∀ w ∈ W, w.asks = true := by
  rcases h with ⟨_, h⟩ | ⟨h, _⟩ | ⟨_, h, _⟩
  · exact h
  · cases h
  · cases h

theorem good_turn {last : FedState} {c : Cb} {I O T : List Call} (h : Good last c I O T) (i : Item) (hi : i.sane c.fed.tc.self)
    (ie : Bool) (hie : ie = true → dead c.fed.state) :
    (∃ I' O' T', Good (turn ie (last, c) i).1 (turn ie (last, c) i).2 I' O' T') ∧
    (turn ie (last, c) i).2.fed.tc.self = c.fed.tc.self ∧
    (dead c.fed.state → dead (turn ie (last, c) i).2.fed.state) := by
  obtain ⟨m, k⟩ := take_ok h i hi
  have hfit : i.ans.fits := by
    cases i with
    | own => exact hi
    | other => exact hi.2.1
  have hfed : (turn ie (last, c) i).2.fed = (c.take i).1.fed := by
    rw [turn_eq]
    dsimp only
    unfold conclude returnResult proceed
    repeat' (first | split | rfl)
    all_goals try rfl
    all_goals (unfold opCall; dsimp only; split <;> rfl)
  refine ⟨?_, by rw [hfed]; exact k.self, ?_⟩
  rotate_left
  · intro hd
    rw [hfed]
    exact (dead_ok ie last c (c.take i).1 I O T m _ _ i.ans hd h.at_ k.ok (k.told.trans h.told)).1
  rw [turn_eq]
  dsimp only
  generalize (c.take i).1 = d at k
  generalize (c.take i).2 = p at k
  generalize i.ans = a at hfit
  have hown : ∀ o ∈ d.pend, Own.sane o := fun o ho => h.own o (k.own o ho)
  have htold := k.told.trans h.told
  by_cases hd : dead c.fed.state
  · obtain ⟨hd', T', h1, h2, h3, h4, h5⟩ := dead_ok ie last c d I O T m _ _ a hd h.at_ k.ok htold
    refine ⟨I, O, T', ?_, ?_, h1, ?_, h2⟩
    · rw [h3]; exact k.inv
    · rw [h4]; exact hown
    · refine h.shape.mono (by rw [h5]; exact k.done) ?_
      rw [h3]
      intro e
      rcases hd' with x | x | x <;> rw [x] at e <;> cases e
  have hie' : ie = false := by
    cases ie
    · rfl
    · exact absurd (hie rfl) hd
  subst hie'
  simp only [Bool.false_eq_true, if_false]
  -- leaving
  have leaving : last = c.fed.state → T = [] → dead d.fed.state → ∃ I' O' T', Good (conclude last d p a).1 (conclude last d p a).2 I' O' T' := by
    intro e eT hd'
    subst eT
    obtain ⟨T', h1, h2, h3, h4, h5⟩ := leave_ok last d I O m _ c.fed.state p a hd e k.ok hd' htold
    refine ⟨I, O, T', ?_, ?_, h1, ?_, h2⟩
    · rw [h3]; exact k.inv
    · rw [h4]; exact hown
    · refine h.shape.mono (by rw [h5]; exact k.done) ?_
      rw [h3]
      intro e
      rcases hd' with x | x | x <;> rw [x] at e <;> cases e
  by_cases hdd : dead d.fed.state
  · cases h.at_ with
    | created e hl _ _ hT => exact leaving (hl.trans e.symm) hT hdd
    | init e hl _ _ hT => exact leaving (hl.trans e.symm) hT hdd
    | exec e hl _ _ hT _ _ => exact leaving (hl.trans e.symm) hT hdd
    | err e => exact absurd (Or.inl e) hd
    | term e => exact absurd (Or.inr (Or.inl e)) hd
    | fin e => exact absurd (Or.inr (Or.inr e)) hd
  have hquiet : ∀ p : MPR, (p = .continueProcessing ∨ p = .delayMessage ∨ p = .userReturn) → p ≠ .iterating ∧ p ≠ .nextStep := by
    intro p h
    rcases h with h | h | h <;> simp [h]
  have hok := k.ok
  cases h.at_ with
  | created hs hl hI hO hT hp hn =>
    subst hI; subst hO; subst hT
    rw [hs] at hok
    generalize hds : d.fed.state = s' at hok hdd
    generalize hdm : d.fed.mode = m' at hok
    have hdp : d.pend = [] := by
      cases hq : d.pend with
      | nil => rfl
      | cons o l =>
        have := k.own o (by rw [hq]; simp)
        rw [hp] at this; cases this
    cases hok with
    | quiet p h1 =>
      have := conclude_quiet d p a (hquiet p h1)
      rw [hds, ← hl] at this
      rw [this]
      exact ⟨[], [], [], k.inv, hown, htold, h.shape.mono k.done (fun e => by rw [hds] at e; cases e), .created hds hl rfl rfl rfl hdp ((k.same hp).trans hn)⟩
    | init _ _ hm =>
      subst hm
      have e : conclude last d .nextStep a = (.initializing, d.initCall a) := by
        simp [conclude, MPR.returnable, returnResult, proceed, hds, hl]
      rw [e]
      exact ⟨_, _, _, initCall_good d [] a k.inv hds hdm hdp ((k.same hp).trans hn) (fun x hx => by cases hx) (fun x hx => by cases hx)
        (by simpa using htold)⟩
    | iter e => cases e
    | enter e => cases e
    | grant _ e => cases e
    | err => exact absurd (Or.inl rfl) hdd
    | term => exact absurd (Or.inr (Or.inl rfl)) hdd
    | fin => exact absurd (Or.inr (Or.inr rfl)) hdd
  | init hs hl hI hO hT ha =>
    subst hO; subst hT
    have hac := (k.acc I false hd ha).resolve_left hdd
    rw [hs] at hok
    generalize hds : d.fed.state = s' at hok hdd
    generalize hdm : d.fed.mode = m' at hok
    cases hok with
    | quiet p h1 =>
      have := conclude_quiet d p a (hquiet p h1)
      rw [hds, ← hl] at this
      rw [this]
      exact ⟨I, [], [], k.inv, hown, htold, h.shape.mono k.done (fun e => by rw [hds] at e; cases e), .init hds hl hI rfl rfl (by rw [hdm]; exact hac)⟩
    | init _ e => cases e
    | iter _ e =>
      subst e
      obtain ⟨w1, w2, w3⟩ := hac.waiting
      have e : conclude last d .iterating a = (.initializing, d.initCall a) := by
        simp [conclude, MPR.returnable, returnResult, proceed, hds, hl]
      rw [e]
      exact ⟨_, _, _, initCall_good d I a k.inv hds hdm w1 w2 w3 h.shape.hI (by simpa using htold)⟩
    | enter _ e =>
      subst e
      obtain ⟨w1, w2, w3⟩ := hac.waiting
      have e : conclude last d .nextStep a = (.executing, d.opCall false a) := by
        simp [conclude, MPR.returnable, returnResult, proceed, hds, hl]
      rw [e]
      obtain ⟨w, hg⟩ := opCall_good d I [] false a hfit k.inv hds hdm w1 (by simpa using w2) (by simpa using w3) h.shape.hI
        (fun x hx => by cases hx) hI List.Pairwise.nil (fun t ht => by cases ht) (by simpa using htold)
      exact ⟨_, _, _, hg⟩
    | grant _ e => cases e
    | err => exact absurd (Or.inl rfl) hdd
    | term => exact absurd (Or.inr (Or.inl rfl)) hdd
    | fin => exact absurd (Or.inr (Or.inr rfl)) hdd
  | exec hs hl hI hO hT ha hh =>
    subst hT
    have hkeep : d.fed.state = .executing → c.fed.tc.granted = maxVal → d.fed.tc.granted = maxVal :=
      fun e1 e2 => Int.le_antisymm k.inv.good.range (e2 ▸ k.mono hs e1)
    have hidle := k.idle
    have hhalt := k.halt
    have hac := (k.acc (I ++ O) true hd ha).resolve_left hdd
    have hmono := k.mono hs
    have hleO : d.fed.state = .executing → ∀ t ∈ times O, t ≤ d.fed.tc.granted :=
      fun e t ht => Int.le_trans (h.shape.le hs t ht) (hmono e)
    rw [hs] at hok
    generalize hds : d.fed.state = s' at hok hdd
    generalize hdm : d.fed.mode = m' at hok
    cases hok with
    | quiet p h1 =>
      have := conclude_quiet d p a (hquiet p h1)
      rw [hds, ← hl] at this
      rw [this]
      exact ⟨I, O, [], k.inv, hown, htold, h.shape.mono k.done (fun e => Or.inl ⟨hs, hmono e⟩), .exec hds hl hI hO rfl (by rw [hdm]; exact hac)
          (fun a b => by
            obtain ⟨x, y⟩ := hidle (hdm.symm.trans a) b hd (by rw [hds]; exact hdd)
            exact hkeep hds (hh x y))⟩
    | init _ e => cases e
    | iter e => cases e
    | enter e => cases e
    | grant p _ e h3 =>
      subst e
      obtain ⟨w1, w2, w3⟩ := hac.waiting
      have go : ∀ it, conclude last d p a = (.executing, d.opCall it a) →
          ∃ I' O' T', Good (conclude last d p a).1 (conclude last d p a).2 I' O' T' := by
        intro it e
        rw [e]
        obtain ⟨w, hg⟩ := opCall_good d I O it a hfit k.inv hds hdm w1 w2 w3 h.shape.hI h.shape.hO hI h.shape.sorted
          (hleO hds) (by simpa using htold)
        exact ⟨_, _, _, hg⟩
      rcases h3 with h3 | h3 | h3
      · exact go false (by subst h3; simp [conclude, MPR.returnable, returnResult, proceed, hds, hl])
      · exact go true (by subst h3; simp [conclude, MPR.returnable, returnResult, proceed, hds, hl])
      · have := conclude_quiet d p a (by rw [h3]; simp)
        rw [hds, ← hl] at this
        rw [this]
        exact ⟨I, O, [], k.inv, hown, htold, h.shape.mono k.done (fun e => Or.inl ⟨hs, hmono e⟩),
          .exec hds hl hI hO rfl (by rw [hdm]; exact Or.inr (Or.inr ⟨rfl, rfl, w1, w2, w3⟩)) (fun _ _ => hhalt hds h3)⟩
    | err => exact absurd (Or.inl rfl) hdd
    | term => exact absurd (Or.inr (Or.inl rfl)) hdd
    | fin => exact absurd (Or.inr (Or.inr rfl)) hdd
  | err e => exact absurd (Or.inl e) hd
  | term e => exact absurd (Or.inr (Or.inl e)) hd
  | fin e => exact absurd (Or.inr (Or.inr e)) hd

theorem good_turns {last : FedState} {c : Cb} {I O T : List Call} (h : Good last c I O T) (is : List Item)
    (hi : ∀ i ∈ is, i.sane c.fed.tc.self) (ie : Bool) (hie : ie = true → dead c.fed.state) :
    (∃ I' O' T', Good (is.foldl (turn ie) (last, c)).1 (is.foldl (turn ie) (last, c)).2 I' O' T') ∧
    (is.foldl (turn ie) (last, c)).2.fed.tc.self = c.fed.tc.self := by
  induction is generalizing last c I O T with
  | nil => exact ⟨⟨I, O, T, h⟩, rfl⟩
  | cons i is ih =>
    obtain ⟨⟨I', O', T', h1⟩, h2, h3⟩ := good_turn h i (hi i (by simp)) ie hie
    have := ih h1 (fun j hj => by rw [h2]; exact hi j (by simp [hj])) (fun e => h3 (hie e))
    exact ⟨this.1, this.2.trans h2⟩

theorem Good.restart {last : FedState} {c : Cb} {I O T : List Call} (h : Good last c I O T) : Good c.fed.state c I O T := by
  refine ⟨h.inv, h.own, h.told, h.shape, ?_⟩
  cases h.at_ with
  | created a b c d e f g => exact .created a a c d e f g
  | init a b c d e f => exact .init a a c d e f
  | exec a b c d e f g => exact .exec a a c d e f g
  | err a b c => exact .err a a c
  | term a b c =>
    refine .term a (by rw [a]; decide) ?_
    rcases c with ⟨x, _⟩ | x
    · exact Or.inl ⟨x, by rw [a]; decide⟩
    · exact Or.inr x
  | fin a b c => exact .fin a a c

theorem good_step {c : Cb} {I O T : List Call} (h : Good c.fed.state c I O T) (e : Ev) (hi : ∀ i ∈ e.items, i.sane c.fed.tc.self) :
    (∃ I' O' T', Good (step c e).fed.state (step c e) I' O' T') ∧ (step c e).fed.tc.self = c.fed.tc.self := by
  cases e with
  | enterInit =>
    refine ⟨⟨I, O, T, h.inv, h.own, h.told, ⟨h.shape.hI, h.shape.hO, h.shape.hOI, h.shape.ask, h.shape.cnt, h.shape.sorted, h.shape.le⟩, ?_⟩, rfl⟩
    cases h.at_ with
    | created a b c d e f g => exact .created a b c d e f g
    | init a b c d e f => exact .init a b c d e f
    | exec a b c d e f g => exact .exec a b c d e f g
    | err a b c => exact .err a b c
    | term a b c => exact .term a b c
    | fin a b c => exact .fin a b c
  | commands is =>
    unfold Cb.step processing
    dsimp only
    split
    · exact ⟨⟨I, O, T, h⟩, rfl⟩
    · obtain ⟨⟨I', O', T', h1⟩, h2⟩ := good_turns h is hi (c.fed.state = .errored) (fun e => Or.inl (of_decide_eq_true e))
      exact ⟨⟨I', O', T', h1.restart⟩, h2⟩

theorem good_fresh {c : Cb} (h : Fresh c) : Good c.fed.state c [] [] [] := by
  obtain ⟨⟨self, a, b, d, hs, e⟩, h1, h2, h3, h4, h5⟩ := h
  have hst : c.fed.state = .created := by rw [e]; rfl
  refine ⟨by rw [e]; exact initial_inv self a b d hs, (by rw [h4]; intro o ho; cases ho), by rw [h3]; rfl, ?_, .created hst hst rfl rfl rfl h4 h5⟩
  exact ⟨(fun x hx => by cases hx), (fun x hx => by cases hx), fun k => absurd rfl k, (fun x hx => by cases hx), by simp, List.Pairwise.nil,
    (fun e => by rw [hst] at e; cases e)⟩

theorem good_run {c : Cb} {I O T : List Call} (h : Good c.fed.state c I O T) (es : List Ev) (hi : Sane c es) :
    ∃ I' O' T', Good (run c es).fed.state (run c es) I' O' T' := by
  induction es generalizing c I O T with
  | nil => exact ⟨I, O, T, h⟩
  | cons e es ih =>
    obtain ⟨⟨I', O', T', h1⟩, h2⟩ := good_step h e (hi e (by simp))
    exact ih h1 (fun x hx i j => by rw [h2]; exact hi x (by simp [hx]) i j)

end Callback
end Verif
