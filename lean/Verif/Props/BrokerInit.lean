import Verif.Lemmas.InitRun
/-!
# C40: initialization is granted only when everybody who joined has asked for it

* `root_starts_iff`, `start_reaches_everyone`, `only_request_starts`: what a root broker does;
* `below_starts_only_on_grant`, `below_asks_only_when_ready`: what a broker below another one does;
* `core_asks_iff`: when a core asks its broker;
* `start_waits`: the whole federation, for every order of calls and of message arrivals.

The counterexamples at the end show where the code does not do what a user expects: a federation which
could start but does not, and a federate which joins late and is not waited for.
-/
namespace Verif.Init

/-! ## Brokers -/

/-- the limits and the requests allow the start, as `CoreBroker::allInitReady` decides it -/
theorem ready_iff_mayStart (b : Broker) : b.ready = true ↔ MayStart b := ready_iff b

/-- the table of a broker after a request of the child `src`: the child counts as having asked (if it
was merely connected) and, if it asked for an iteration, as iterating -/
def Broker.afterRequest (b : Broker) (src : Int) (iter : Bool) : Broker := b.noted src iter

theorem upd_state (b : Broker) (src : Int) (f : BrkInfo → BrkInfo) : (b.upd src f).state = b.state := by
  unfold Broker.upd; split <;> rfl

theorem upd_cfg (b : Broker) (src : Int) (f : BrkInfo → BrkInfo) : (b.upd src f).cfg = b.cfg := by
  unfold Broker.upd; split <;> rfl

theorem upd_unmatched (b : Broker) (src : Int) (f : BrkInfo → BrkInfo) :
    (b.upd src f).unmatched = b.unmatched := by
  unfold Broker.upd; split <;> rfl

theorem noted_state (b : Broker) (src : Int) (iter : Bool) : (b.noted src iter).state = b.state := by
  unfold Broker.noted
  dsimp only
  split
  · exact (upd_state _ _ _).trans (upd_state _ _ _)
  · exact upd_state _ _ _

theorem noted_cfg (b : Broker) (src : Int) (iter : Bool) : (b.noted src iter).cfg = b.cfg := by
  unfold Broker.noted
  dsimp only
  split
  · exact (upd_cfg _ _ _).trans (upd_cfg _ _ _)
  · exact upd_cfg _ _ _

theorem noted_unmatched (b : Broker) (src : Int) (iter : Bool) :
    (b.noted src iter).unmatched = b.unmatched := by
  unfold Broker.noted
  dsimp only
  split
  · exact (upd_unmatched _ _ _).trans (upd_unmatched _ _ _)
  · exact upd_unmatched _ _ _

/-- a request from a known child, in terms of the table after it -/
theorem onInit_cases {b : Broker} {src : Int} {k : BrkInfo} (hk : b.get src = some k)
    (hs : ¬((b.cfg.dyn = true ∨ k.observer = true) ∧ b.state.val ≥ BState.operating.val)) (iter : Bool) :
    b.onInit src iter =
      if (b.afterRequest src iter).ready = true then
        if b.cfg.isRoot = true then
          if (b.afterRequest src iter).iterating = true then (b.afterRequest src iter).iterate
          else (b.afterRequest src iter).start
        else
          (b.afterRequest src iter,
            [(.parent, .init (b.afterRequest src iter).id (iter || (b.afterRequest src iter).iterating))])
      else (b.afterRequest src iter, []) := by
  have hc := noted_cfg b src iter
  unfold Broker.onInit
  rw [hk]
  dsimp only
  rw [if_neg]
  · change (if (b.noted src iter).ready = true then
        if (b.noted src iter).cfg.isRoot = true then
          if (b.noted src iter).iterating = true then (b.noted src iter).iterate
          else (b.noted src iter).start
        else _
      else (b.noted src iter, [])) = _
    rw [hc]
    rfl
  · rw [upd_state, upd_cfg]
    exact hs

/-- a request from a known child before the start -/
theorem onInit_before {b : Broker} {src : Int} {k : BrkInfo} (hk : b.get src = some k)
    (hs : b.state.val < BState.operating.val) (iter : Bool) :
    b.onInit src iter =
      if (b.afterRequest src iter).ready = true then
        if b.cfg.isRoot = true then
          if (b.afterRequest src iter).iterating = true then (b.afterRequest src iter).iterate
          else (b.afterRequest src iter).start
        else
          (b.afterRequest src iter,
            [(.parent, .init (b.afterRequest src iter).id (iter || (b.afterRequest src iter).iterating))])
      else (b.afterRequest src iter, []) :=
  onInit_cases hk (fun h => by have := h.2; omega) iter

/-- a request of a late joiner is answered without touching anything but its own entry -/
theorem onInit_late {b : Broker} {src : Int} {k : BrkInfo} (hk : b.get src = some k)
    (hs : (b.cfg.dyn = true ∨ k.observer = true) ∧ b.state.val ≥ BState.operating.val) (iter : Bool) :
    (b.onInit src iter).1 = b.upd src
      (fun k => if k.state = .connected then { k with state := .initRequested } else k) := by
  unfold Broker.onInit
  rw [hk]
  dsimp only
  rw [if_pos (by rw [upd_state, upd_cfg]; exact hs)]
  split <;> rfl

/-- **a request taken back counts as not made**: after a direct child has told a broker that it is not
ready after all, the broker does not let anybody start until that child asks again; a broker below which
had itself asked passes the retraction on -/
theorem retraction_counts {b : Broker} {src : Int} {k : BrkInfo} (hk : b.get src = some k)
    (hl : k.nonLocal = false) (hn : ¬(b.ready = true ∧ b.cfg.isRoot = true)) :
    (b.onNotReady src).1.ready = false ∧
    (b.ready = true → (.parent, .notReady src) ∈ (b.onNotReady src).2) := by
  unfold Broker.onNotReady
  rw [if_neg hn]
  refine ⟨?_, fun h => by simp [h]⟩
  rw [Bool.eq_false_iff]
  intro h
  have hm := (ready_iff _).mp h
  dsimp only at hm
  unfold Broker.get at hk
  unfold Broker.upd at hm
  cases hf : b.find src with
  | none => rw [hf] at hk; cases hk
  | some i =>
    rw [hf] at hk hm
    dsimp only at hk hm
    refine hm.asked { k with state := .connected, iterating := false } ?_ hl rfl
    refine List.mem_of_getElem? (i := i) ?_
    rw [List.getElem?_modify_eq, hk]
    rfl

theorem BState.set_operating {s : BState} (hs : s.val < BState.operating.val) :
    s.set .operating = .operating := by
  cases s <;> first | rfl | exact absurd hs (by decide)

theorem BState.set_errored {s : BState} : s.set .errored ≠ .operating := by
  cases s <;> decide

theorem BState.set_connected {s : BState} : s.set .connected ≠ .operating := by
  cases s <;> decide

/-- **A root broker starts its federation exactly when** a request of a child completes the picture:
all limits are met, nobody has yet to ask, nobody asked for another iteration and the required
connections exist -/
theorem root_starts_iff {b : Broker} (hr : b.cfg.isRoot = true) (hs : b.state.val < BState.operating.val)
    {src : Int} {k : BrkInfo} (hk : b.get src = some k) (iter : Bool) :
    (b.onInit src iter).1.state = .operating ↔
      MayStart (b.afterRequest src iter) ∧ (b.afterRequest src iter).iterating = false ∧
        b.unmatched = false := by
  have h1 : (b.afterRequest src iter).state = b.state := noted_state b src iter
  have h2 : (b.afterRequest src iter).unmatched = b.unmatched := noted_unmatched b src iter
  have h3 : b.state ≠ .operating := by intro e; rw [e] at hs; exact absurd hs (by decide)
  rw [onInit_before hk hs, ← ready_iff]
  split
  · rename_i hready
    split
    · rename_i hit
      unfold Broker.iterate
      dsimp only
      constructor
      · intro e
        exact absurd e BState.set_connected
      · rintro ⟨-, e, -⟩
        rw [hit] at e; cases e
    · rename_i hit
      unfold Broker.start
      rw [h2]
      split
      · rename_i hu
        constructor
        · intro e; exact absurd (h1.symm.trans e) h3
        · rintro ⟨-, -, e⟩; rw [hu] at e; cases e
      · rename_i hu
        constructor
        · intro _
          exact ⟨hready, by simpa using hit, by simpa using hu⟩
        · intro _
          dsimp only
          rw [h1]
          exact BState.set_operating hs
  · rename_i hready
    constructor
    · intro e; exact absurd (h1.symm.trans e) h3
    · rintro ⟨e, -⟩; exact absurd e hready

/-- the start is announced to every direct child which has not left, once to each, and to nobody
else -/
theorem start_reaches_everyone {b : Broker} (hr : b.cfg.isRoot = true)
    (hs : b.state.val < BState.operating.val) {src : Int} {k : BrkInfo} (hk : b.get src = some k)
    {iter : Bool} (h : (b.onInit src iter).1.state = .operating) :
    (b.onInit src iter).2 =
      ((b.afterRequest src iter).brks.filter
        (fun k => !k.nonLocal && decide (k.state ≠ .disconnected))).map
        (fun k => (.child k.name, .grant k.gid false false false)) := by
  obtain ⟨h1, h2, h3⟩ := (root_starts_iff hr hs hk iter).mp h
  have e : (b.onInit src iter) = (b.afterRequest src iter).start := by
    rw [onInit_before hk hs, if_pos ((ready_iff _).mpr h1), if_pos hr, if_neg (by rw [h2]; simp)]
  have h4 : (b.afterRequest src iter).unmatched = b.unmatched := noted_unmatched b src iter
  rw [e]
  unfold Broker.start
  rw [h4, h3, if_neg (by simp)]
  dsimp only
  unfold Broker.broadcast
  congr 1
  apply List.filter_congr
  intro a _
  cases a.state <;> simp [Conn.val]

theorem answerFed_state (b : Broker) (src : Int) (x : String) (nc o r c : Bool) (e k g : Int) :
    (b.answerFed src x nc o r c e k g).1.state = b.state := by
  unfold Broker.answerFed
  split
  · split <;> rfl
  · rfl

theorem fedReg_state (b : Broker) (src : Int) (x : String) (nc o r c : Bool) (e k : Int) :
    (b.fedReg src x nc o r c e k).1.state = b.state := by
  unfold Broker.fedReg
  split
  · rfl
  split
  · rfl
  split
  · rfl
  dsimp only
  split
  · split
    · exact answerFed_state _ _ _ _ _ _ _ _ _ _
    · rfl
  · split
    · rfl
    · exact answerFed_state _ _ _ _ _ _ _ _ _ _

theorem brkReg_state (b : Broker) (src : Int) (x : String) (c o t r k : Bool) :
    (b.brkReg src x c o t r k).1.state = b.state := by
  unfold Broker.brkReg
  split
  · rfl
  split
  · rfl
  split
  · rfl
  split
  · rfl
  dsimp only
  split
  · rfl
  split
  · rfl
  split
  · rfl
  split
  · split <;> rfl
  · rfl

theorem markGone_rest (fuel : Nat) (b : Broker) (id : Int) :
    (Broker.markGone fuel b id).state = b.state ∧ (Broker.markGone fuel b id).cfg = b.cfg := by
  induction fuel generalizing b id with
  | zero => exact ⟨rfl, rfl⟩
  | succ fuel ih =>
    unfold Broker.markGone
    dsimp only
    have key : ∀ (l : List Nat) (b1 : Broker), b1.state = b.state ∧ b1.cfg = b.cfg →
        (l.foldl (fun (b : Broker) i =>
          match b.brks[i]? with
          | none => b
          | some k =>
            if k.parent = id ∧ k.state ≠ .error then
              Broker.markGone fuel
                { (if k.gid = id ∧ k.state ≠ .error then
                    { b with brks := b.brks.modify i (fun k => { k with state := .disconnected }) }
                    else b) with
                  brks := (if k.gid = id ∧ k.state ≠ .error then
                    { b with brks := b.brks.modify i (fun k => { k with state := .disconnected }) }
                    else b).brks.modify i (fun k => { k with state := .disconnected }) } k.gid
            else (if k.gid = id ∧ k.state ≠ .error then
                { b with brks := b.brks.modify i (fun k => { k with state := .disconnected }) }
                else b)) b1).state = b.state ∧
        (l.foldl (fun (b : Broker) i =>
          match b.brks[i]? with
          | none => b
          | some k =>
            if k.parent = id ∧ k.state ≠ .error then
              Broker.markGone fuel
                { (if k.gid = id ∧ k.state ≠ .error then
                    { b with brks := b.brks.modify i (fun k => { k with state := .disconnected }) }
                    else b) with
                  brks := (if k.gid = id ∧ k.state ≠ .error then
                    { b with brks := b.brks.modify i (fun k => { k with state := .disconnected }) }
                    else b).brks.modify i (fun k => { k with state := .disconnected }) } k.gid
            else (if k.gid = id ∧ k.state ≠ .error then
                { b with brks := b.brks.modify i (fun k => { k with state := .disconnected }) }
                else b)) b1).cfg = b.cfg := by
      intro l
      induction l with
      | nil => intro b1 h1; exact h1
      | cons i l ihl =>
        intro b1 h1
        rw [List.foldl_cons]
        apply ihl
        cases hi : b1.brks[i]? with
        | none => exact h1
        | some k =>
          dsimp only
          split
          · refine ⟨(ih _ _).1.trans ?_, (ih _ _).2.trans ?_⟩
            · dsimp only; split <;> exact h1.1
            · dsimp only; split <;> exact h1.2
          · split <;> exact h1
    exact key (List.range b.brks.length) b ⟨rfl, rfl⟩

theorem onDisconnect_rest (b : Broker) (src : Int) :
    (b.onDisconnect src).1.state = b.state ∧ (b.onDisconnect src).1.cfg = b.cfg := by
  unfold Broker.onDisconnect
  split
  · exact ⟨rfl, rfl⟩
  split
  · split <;> exact ⟨rfl, rfl⟩
  · rename_i k _
    have h := markGone_rest (b.brks.length + 1) b k.gid
    dsimp only
    split
    · split
      · exact h
      · split <;> exact h
    · exact h

/-- **Nothing else starts a federation**: a root broker only starts when it processes a request -/
theorem only_request_starts {b : Broker} (hr : b.cfg.isRoot = true) (hs : b.state ≠ .operating)
    {m : Msg} (h : (b.handle m).1.state = .operating) : ∃ src iter, m = .init src iter := by
  have bad : ∀ {b' : Broker}, b'.state = b.state → b'.state = .operating → False :=
    fun e1 e2 => hs (e1.symm.trans e2)
  cases m with
  | init src iter => exact ⟨src, iter, rfl⟩
  | regFed src x nc o r c e k => exact (bad (fedReg_state _ _ _ _ _ _ _ _ _) h).elim
  | regBrk src x c o t r k => exact (bad (brkReg_state _ _ _ _ _ _ _ _) h).elim
  | fedAck src x d e =>
    simp only [Broker.handle, hr, if_true] at h
    exact (hs h).elim
  | brkAck src x d e =>
    simp only [Broker.handle, hr, if_true] at h
    exact (hs h).elim
  | grant d i o y =>
    simp only [Broker.handle, hr, if_true] at h
    exact (hs h).elim
  | notReady src =>
    simp only [Broker.handle, Broker.onNotReady] at h
    split at h
    · exact (hs h).elim
    · exact (bad (upd_state _ _ _) h).elim
  | disconnect src => exact (bad (onDisconnect_rest b src).1 h).elim
  | discNode src =>
    simp only [Broker.handle, Broker.onDiscNode] at h
    split at h
    · exact (hs h).elim
    · rename_i k _
      exact (bad (markGone_rest (b.brks.length + 1) b k.gid).1 h).elim
  | discFed src => exact (hs h).elim
  | discAck d => exact (hs h).elim
  | bcastDisc d => exact (hs h).elim
  | prioDisc src => exact (bad (upd_state _ _ _) h).elim
  | localError src =>
    simp only [Broker.handle, Broker.onError] at h
    split at h
    · dsimp only at h
      exact absurd h BState.set_errored
    · dsimp only at h
      split at h
      · exact (bad (upd_state _ _ _) h).elim
      · exact (hs h).elim

/-- a broker below another one starts only on a grant from above -/
theorem below_starts_only_on_grant {b : Broker} (hr : b.cfg.isRoot = false) (hs : b.state ≠ .operating)
    {m : Msg} (h : (b.handle m).1.state = .operating) :
    ∃ dest, m = .grant dest false false false := by
  have bad : ∀ {b' : Broker}, b'.state = b.state → b'.state = .operating → False :=
    fun e1 e2 => hs (e1.symm.trans e2)
  cases m with
  | grant d i o y =>
    simp only [Broker.handle, hr, Bool.false_eq_true, if_false, Broker.onGrant] at h
    split at h
    · rename_i hc
      obtain ⟨rfl, rfl⟩ := hc
      split at h
      · unfold Broker.iterate at h
        exact absurd h BState.set_connected
      · rename_i hi
        have : i = false := by simpa using hi
        subst this
        exact ⟨d, rfl⟩
    · exact (hs h).elim
  | init src iter =>
    exfalso
    change (b.onInit src iter).1.state = .operating at h
    cases hk : b.get src with
    | none => simp only [Broker.onInit, hk] at h; exact hs h
    | some k =>
      by_cases hc : (b.cfg.dyn = true ∨ k.observer = true) ∧ b.state.val ≥ BState.operating.val
      · rw [onInit_late hk hc] at h
        exact bad (upd_state _ _ _) h
      · rw [onInit_cases hk hc, hr] at h
        simp only [Bool.false_eq_true, if_false] at h
        split at h <;> exact bad (noted_state b src iter) h
  | regFed src x nc o r c e k => exact (bad (fedReg_state _ _ _ _ _ _ _ _ _) h).elim
  | regBrk src x c o t r k => exact (bad (brkReg_state _ _ _ _ _ _ _ _) h).elim
  | fedAck src x d e =>
    simp only [Broker.handle, hr, Bool.false_eq_true, if_false, Broker.fedAck] at h
    split at h <;> exact (hs h).elim
  | brkAck src x d e =>
    simp only [Broker.handle, hr, Bool.false_eq_true, if_false, Broker.brkAck] at h
    split at h
    · split at h <;> exact (hs h).elim
    · split at h
      · split at h <;> exact (hs h).elim
      · exact (hs h).elim
  | notReady src =>
    simp only [Broker.handle, Broker.onNotReady] at h
    split at h
    · exact (hs h).elim
    · exact (bad (upd_state _ _ _) h).elim
  | disconnect src => exact (bad (onDisconnect_rest b src).1 h).elim
  | discNode src =>
    simp only [Broker.handle, Broker.onDiscNode] at h
    split at h
    · exact (hs h).elim
    · rename_i k _
      exact (bad (markGone_rest (b.brks.length + 1) b k.gid).1 h).elim
  | discFed src => exact (hs h).elim
  | discAck d => exact (hs h).elim
  | bcastDisc d => exact (hs h).elim
  | prioDisc src => exact (bad (upd_state _ _ _) h).elim
  | localError src =>
    simp only [Broker.handle, Broker.onError] at h
    split at h
    · dsimp only at h
      exact absurd h BState.set_errored
    · dsimp only at h
      split at h
      · exact (bad (upd_state _ _ _) h).elim
      · exact (hs h).elim

/-- a broker below another one passes a request on exactly when its own part of the federation is
complete and everybody in it has asked -/
theorem below_asks_iff {b : Broker} (hr : b.cfg.isRoot = false) (hs : b.state.val < BState.operating.val)
    {src : Int} {k : BrkInfo} (hk : b.get src = some k) (iter : Bool) :
    (∃ s i, (Dest.parent, Msg.init s i) ∈ (b.onInit src iter).2) ↔
      MayStart (b.afterRequest src iter) := by
  rw [onInit_before hk hs, ← ready_iff]
  split
  · rename_i h
    rw [if_neg (by rw [hr]; simp)]
    exact ⟨fun _ => h, fun _ => ⟨_, _, List.mem_singleton.mpr rfl⟩⟩
  · rename_i h
    constructor
    · rintro ⟨s, i, hm⟩; cases hm
    · intro h'; exact absurd h' h

/-! ## Cores -/

/-- when a core asks its broker for initialization -/
structure MayAsk (c : Core) : Prop where
  delay : c.delay ≤ 0
  feds : c.minFed ≤ c.feds.length ∧ c.minChild ≤ c.feds.length
  required : ∀ r ∈ c.required, r ≠ "" → ∃ f ∈ c.feds, f.name = r
  asked : ∀ f ∈ c.feds, f.asked = true

theorem core_ready_iff (c : Core) : c.ready = true ↔ MayAsk c := by
  have hreq : c.required.any (fun r => decide (r ≠ "" ∧ c.feds.all (fun f => f.name ≠ r))) = false ↔
      ∀ r ∈ c.required, r ≠ "" → ∃ f ∈ c.feds, f.name = r := by
    rw [List.any_eq_false]
    constructor
    · intro h r hr hne
      have := h r hr
      simp [hne] at this
      exact this
    · intro h r hr
      simp only [decide_eq_true_eq]
      rintro ⟨hne, hall⟩
      obtain ⟨f, hf, hfr⟩ := h r hr hne
      rw [List.all_eq_true] at hall
      have := hall f hf
      simp [hfr] at this
  constructor
  · intro h
    unfold Core.ready at h
    split at h; · cases h
    split at h; · cases h
    split at h; · cases h
    rename_i h1 h2 h3
    refine ⟨by omega, by omega, hreq.mp (by simpa using h3), List.all_eq_true.mp h⟩
  · intro h
    have h1 := h.delay; have h2 := h.feds
    unfold Core.ready
    rw [if_neg (by omega), if_neg (by omega), hreq.mpr h.required, if_neg (by simp)]
    exact List.all_eq_true.mpr h.asked

/-- **A core asks for initialization exactly when** the request it processes is the last one missing -/
theorem core_asks_iff {c : Core} (hs : c.state = .connected) {x : String}
    (hx : ∃ f ∈ c.feds, f.name = x) (iter : Bool) :
    (∃ s i, (Dest.parent, Msg.init s i) ∈ (c.onInit x iter).2) ↔
      MayAsk { c with feds := c.feds.map (fun f => if f.name = x then { f with asked := true } else f) } := by
  have hany : c.feds.any (fun f => decide (f.name = x)) = true := by
    obtain ⟨f, hf, e⟩ := hx
    exact List.any_eq_true.mpr ⟨f, hf, decide_eq_true e⟩
  rw [← core_ready_iff]
  unfold Core.onInit
  rw [if_pos hany]
  dsimp only
  have hu : (c.upd x (fun f => { f with asked := true })) =
    { c with feds := c.feds.map (fun f => if f.name = x then { f with asked := true } else f) } := rfl
  rw [hu]
  split
  · rename_i h
    simp only [hs, if_true, Core.ask]
    exact ⟨fun _ => h, fun _ => ⟨_, _, List.mem_singleton.mpr rfl⟩⟩
  · rename_i h
    constructor
    · rintro ⟨s, i, hm⟩; cases hm
    · intro h'; exact absurd h' h

/-- **A core lets its federates start only when told to, and only after it has asked**: if nobody on a
core has been let into initialization and an event changes that, the event is a grant of the broker which
is not for an iteration, and the core had asked - unless the grant is one for observers or late joiners -/
theorem core_starts_only_on_grant {c : Core} (h0 : ∀ f ∈ c.feds, f.started = false) (e : CoreEv)
    (h : ∃ f ∈ (c.step e).1.feds, f.started = true) :
    ∃ d o dy, e = .recv (.grant d false o dy) ∧ (c.state = .initializing ∨ o = true ∨ dy = true) := by
  obtain ⟨f, hf, hs⟩ := h
  have same : ∀ {l : List CFed} (F : CFed → CFed), (∀ g, (F g).started = g.started) →
      (∀ g ∈ l, g.started = false) → f ∈ l.map F → False := by
    intro l F hF hl hm
    obtain ⟨g, hg, rfl⟩ := List.mem_map.mp hm
    rw [hF, hl g hg] at hs
    cases hs
  have keep : f ∈ c.feds → False := fun hm => by rw [h0 f hm] at hs; cases hs
  have updF : ∀ (x : String) (F : CFed → CFed), (∀ g, (F g).started = g.started) →
      f ∈ (c.upd x F).feds → False := by
    intro x F hF hm
    refine same (fun g => if g.name = x then F g else g) ?_ h0 hm
    intro g; split
    · exact hF g
    · rfl
  have askF : ∀ (c' : Core) (i : Bool), (c'.ask i).1.feds = c'.feds := by
    intro c' i; unfold Core.ask; split <;> rfl
  have discF : ∀ (c' : Core), (c'.checkDisc).1.feds = c'.feds := by
    intro c'; unfold Core.checkDisc; split
    · rfl
    · split <;> rfl
  cases e with
  | register x o r g =>
    simp only [Core.step, Core.register] at hf
    split at hf; · exact (keep hf).elim
    split at hf; · exact (keep hf).elim
    split at hf; · exact (keep hf).elim
    dsimp only at hf
    rw [List.mem_append, List.mem_singleton] at hf
    rcases hf with hf | rfl
    · exact (keep hf).elim
    · cases hs
  | callInit x i =>
    simp only [Core.step, Core.callInit] at hf
    split at hf
    · exact (updF x _ (by intro _; rfl) hf).elim
    · exact (keep hf).elim
  | init x i =>
    simp only [Core.step, Core.onInit] at hf
    split at hf
    · skip
      split at hf
      · split at hf
        · rw [askF] at hf; exact (updF x _ (by intro _; rfl) hf).elim
        · split at hf <;> exact (updF x _ (by intro _; rfl) hf).elim
      · exact (updF x _ (by intro _; rfl) hf).elim
    · exact (keep hf).elim
  | leave x =>
    simp only [Core.step, Core.onLeave] at hf
    split at hf
    · exact (keep hf).elim
    · split at hf
      · rw [discF] at hf; exact (updF x _ (by intro _; rfl) hf).elim
      · exact (keep hf).elim
  | enableInit =>
    simp only [Core.step, Core.onEnable] at hf
    split at hf
    · rw [askF] at hf; exact (keep hf).elim
    · exact (keep hf).elim
  | delayInit => exact (keep hf).elim
  | close =>
    simp only [Core.step, Core.onClose] at hf
    split at hf
    · exact (keep hf).elim
    · split at hf <;> exact (keep hf).elim
  | recv m =>
    cases m with
    | grant d i o dy =>
      simp only [Core.step, Core.onGrant] at hf
      cases i with
      | true =>
        simp only [if_true] at hf
        split at hf
        · refine (same (fun f => if f.iterating then { f with iterating := false, asked := false, calling := false } else f) ?_ h0 hf).elim
          intro g; split <;> rfl
        · exact (keep hf).elim
      | false =>
        refine ⟨d, o, dy, rfl, ?_⟩
        simp only [Bool.false_eq_true, if_false] at hf
        split at hf
        · rename_i h; exact .inl h
        · split at hf
          · rename_i h; exact .inr h
          · exact (keep hf).elim
    | brkAck s x d err =>
      simp only [Core.step, Core.onBrkAck] at hf
      split at hf
      · split at hf
        · exact (keep hf).elim
        · split at hf
          · dsimp only at hf; rw [askF] at hf; exact (keep hf).elim
          · exact (keep hf).elim
      · exact (keep hf).elim
    | fedAck s x d err =>
      simp only [Core.step, Core.onFedAck] at hf
      split at hf
      · exact (keep hf).elim
      · exact (updF x _ (by intro _; rfl) hf).elim
    | bcastDisc s =>
      simp only [Core.step] at hf
      rw [discF] at hf
      exact (keep hf).elim
    | regFed => exact (keep hf).elim
    | regBrk => exact (keep hf).elim
    | init => exact (keep hf).elim
    | notReady => exact (keep hf).elim
    | disconnect => exact (keep hf).elim
    | discNode => exact (keep hf).elim
    | discFed => exact (keep hf).elim
    | discAck => exact (keep hf).elim
    | prioDisc => exact (keep hf).elim
    | localError => exact (keep hf).elim

/-! ## The whole federation -/

/-- a core before it connects, without federates, in a federation that is not dynamic on its side -/
structure Fresh (c : Core) : Prop where
  dyn : c.dyn = false
  id : c.id = parentId
  feds : c.feds = []
  state : c.state = .connected
  delayed : c.delayed = []

/-- the federate `x` registered on core `i` after that core had asked its broker (or had failed or
left) -/
def Late (y : Sys) (es : List SysEv) (i : Nat) (x : String) : Prop :=
  ∃ es1 es2 o r g n, es = es1 ++ .api i (.register x o r g) :: es2 ∧
    (y.run es1).nodes[i]? = some n ∧ n.core.state ≠ .connected

/-- the application closes a core, or enables its entry, only after the core is registered -/
def Proper (y : Sys) (es : List SysEv) : Prop :=
  ∀ es1 es2 i e n, es = es1 ++ .api i e :: es2 → (e = .close ∨ e = .enableInit) →
    (y.run es1).nodes[i]? = some n → n.core.id ≠ parentId

theorem onInit_cfg (b : Broker) (src : Int) (iter : Bool) : (b.onInit src iter).1.cfg = b.cfg := by
  have hn := noted_cfg b src iter
  cases hk : b.get src with
  | none => simp only [Broker.onInit, hk]
  | some k =>
    by_cases hc : (b.cfg.dyn = true ∨ k.observer = true) ∧ b.state.val ≥ BState.operating.val
    · rw [onInit_late hk hc]
      exact upd_cfg _ _ _
    · rw [onInit_cases hk hc]
      split
      · split
        · split
          · exact hn
          · unfold Broker.start
            split <;> exact hn
        · exact hn
      · exact hn

theorem answerFed_cfg (b : Broker) (src : Int) (x : String) (nc o r c : Bool) (e k g : Int) :
    (b.answerFed src x nc o r c e k g).1.cfg = b.cfg := by
  unfold Broker.answerFed
  split
  · split <;> rfl
  · rfl

theorem handle_cfg (b : Broker) (m : Msg) : (b.handle m).1.cfg = b.cfg := by
  cases m with
  | init src iter => exact onInit_cfg b src iter
  | regFed src x nc o r c e k =>
    simp only [Broker.handle, Broker.fedReg]
    split
    · rfl
    split
    · rfl
    split
    · rfl
    split
    · split
      · exact answerFed_cfg _ _ _ _ _ _ _ _ _ _
      · rfl
    · split
      · rfl
      · exact answerFed_cfg _ _ _ _ _ _ _ _ _ _
  | regBrk src x c o t r k =>
    simp only [Broker.handle, Broker.brkReg]
    split
    · rfl
    split
    · rfl
    split
    · rfl
    split
    · rfl
    split
    · rfl
    split
    · rfl
    split
    · rfl
    split
    · split <;> rfl
    · rfl
  | fedAck src x d e =>
    simp only [Broker.handle, Broker.fedAck]
    split
    · rfl
    · split <;> rfl
  | brkAck src x d e =>
    simp only [Broker.handle, Broker.brkAck]
    split
    · rfl
    · split
      · split <;> rfl
      · split
        · split <;> rfl
        · rfl
  | grant d i o y =>
    simp only [Broker.handle, Broker.onGrant]
    split
    · rfl
    · split
      · split <;> rfl
      · rfl
  | notReady src =>
    simp only [Broker.handle, Broker.onNotReady]
    split
    · rfl
    · exact upd_cfg _ _ _
  | disconnect src => exact (onDisconnect_rest b src).2
  | discNode src =>
    simp only [Broker.handle, Broker.onDiscNode]
    split
    · rfl
    · exact (markGone_rest _ _ _).2
  | discFed src => rfl
  | discAck d => rfl
  | bcastDisc d => rfl
  | prioDisc src => exact upd_cfg _ _ _
  | localError src =>
    simp only [Broker.handle, Broker.onError]
    split
    · rfl
    · dsimp only
      split
      · exact upd_cfg _ _ _
      · rfl

theorem step_cfg (y : Sys) (e : SysEv) : (y.step e).root.cfg = y.root.cfg := by
  cases e <;> simp only [Sys.step] <;> split <;> try rfl
  · split <;> rfl
  · split <;> rfl
  · split
    · exact handle_cfg _ _
    · rfl
  · split
    · split <;> rfl
    · rfl

theorem run_snoc (y : Sys) (es : List SysEv) (e : SysEv) : y.run (es ++ [e]) = (y.run es).step e := by
  simp [Sys.run, List.foldl_append]

theorem run_cfg (y : Sys) (es : List SysEv) : (y.run es).root.cfg = y.root.cfg := by
  unfold Sys.run
  induction es generalizing y with
  | nil => rfl
  | cons e es ih => rw [List.foldl_cons, ih, step_cfg]

theorem start_inv (cfg : Cfg) {cores : List Core} (hf : ∀ c ∈ cores, Fresh c)
    (hn : (cores.map (·.name)).Nodup) (late : Nat → String → Prop) : SInv late (Sys.start cfg cores) := by
  have hget : ∀ (i : Nat) n, (Sys.start cfg cores).nodes[i]? = some n →
      ∃ c, cores[i]? = some c ∧ n = { core := c } := by
    intro i n h
    change (cores.map (fun c : Core => ({ core := c } : Node)))[i]? = some n at h
    rw [List.getElem?_map] at h
    cases hc : cores[i]? with
    | none => rw [hc] at h; cases h
    | some c => rw [hc] at h; exact ⟨c, rfl, (Option.some.inj h).symm⟩
  refine ⟨⟨rfl, rfl, rfl, ?_, ?_, ?_, ?_, ?_, ?_, ?_⟩, ?_, ?_, ?_, ?_⟩
  · intro i k h; simp [Sys.start] at h
  · intro k h; cases h
  · intro k h; cases h
  · intro k h; cases h
  · intro k h; cases h
  · simp [Sys.start]
  · simp [Sys.start]
  · intro i n h
    obtain ⟨c, hc, rfl⟩ := hget i n h
    have F := hf c (List.mem_of_getElem? hc)
    refine ⟨F.dyn, .inl F.id, fun _ => F.feds, F.delayed, .inl F.state, ?_, ?_, ?_, ?_, ?_, ?_, ?_,
      ?_, ?_, ?_, ?_, ?_⟩
    · intro m h; cases h
    · intro m h; cases h
    · intro k h; cases h
    · intro k h; cases h
    · intro _ f h; dsimp only at h; rw [F.feds] at h; cases h
    · intro f h; dsimp only at h; rw [F.feds] at h; cases h
    · intro w h; cases h
    · intro f h; dsimp only at h; rw [F.feds] at h; cases h
    · intro w h; cases h
    · dsimp only; rw [F.feds]; simp
    · intro x; left; simp
    · intro w h; cases h
  · intro i j n n' h1 h2 e
    obtain ⟨c, hc, rfl⟩ := hget i n h1
    obtain ⟨c', hc', rfl⟩ := hget j n' h2
    have h1 : (cores.map (·.name))[i]? = some c.name := by rw [List.getElem?_map, hc]; rfl
    have h2 : (cores.map (·.name))[j]? = some c.name := by
      rw [List.getElem?_map, hc']; exact congrArg some e.symm
    obtain ⟨l1, e1⟩ := List.getElem?_eq_some_iff.mp h1
    obtain ⟨l2, e2⟩ := List.getElem?_eq_some_iff.mp h2
    exact (List.getElem_inj hn (h₀ := l1) (h₁ := l2)).mp (e1.trans e2.symm)
  · intro f h; cases h
  · intro k h; cases h

theorem start_waits_aux (cfg : Cfg) {cores : List Core} (hf : ∀ c ∈ cores, Fresh c)
    (hn : (cores.map (·.name)).Nodup) (n : Nat) : ∀ es : List SysEv, es.length = n →
    Proper (Sys.start cfg cores) es →
    SInv (Late (Sys.start cfg cores) es) ((Sys.start cfg cores).run es) ∨
    ∃ es1 es2, es = es1 ++ es2 ∧
      CanStart { cfg with isRoot := true } (Late (Sys.start cfg cores) es1)
        ((Sys.start cfg cores).run es1) := by
  induction n with
  | zero =>
    intro es h _
    rw [List.length_eq_zero_iff] at h
    subst h
    exact .inl (start_inv cfg hf hn _)
  | succ n ih =>
    intro es h hp
    have hne : es ≠ [] := by intro e; rw [e] at h; cases h
    obtain ⟨es0, e, rfl⟩ : ∃ es0 e, es = es0 ++ [e] :=
      ⟨es.dropLast, es.getLast hne, (List.dropLast_concat_getLast hne).symm⟩
    have hlen : es0.length = n := by
      rw [List.length_append, List.length_singleton] at h; omega
    have hp0 : Proper (Sys.start cfg cores) es0 := by
      intro es1 es2 i c m e1 e2 e3
      exact hp es1 (es2 ++ [e]) i c m (by rw [e1]; simp) e2 e3
    rcases ih es0 hlen hp0 with h1 | ⟨es1, es2, e1, h1⟩
    · rw [run_snoc]
      have hstep : SInv (Late (Sys.start cfg cores) (es0 ++ [e]))
            (((Sys.start cfg cores).run es0).step e) ∨
          CanStart ((Sys.start cfg cores).run es0).root.cfg (Late (Sys.start cfg cores) es0)
            ((Sys.start cfg cores).run es0) := by
        refine step_ok h1 e ?_ ?_ ?_
        · rintro i x ⟨es1, es2, o, r, g, m, e1, e2, e3⟩
          exact ⟨es1, es2 ++ [e], o, r, g, m, by rw [e1]; simp, e2, e3⟩
        · intro i x o r g m e1 e2 e3
          exact ⟨es0, [], o, r, g, m, by rw [e1], e2, e3⟩
        · rintro i m (e1 | e1) e2
          · exact hp es0 [] i .close m (by rw [e1]) (.inl rfl) e2
          · exact hp es0 [] i .enableInit m (by rw [e1]) (.inr rfl) e2
      rcases hstep with h2 | h2
      · exact .inl h2
      · refine .inr ⟨es0, [e], rfl, ?_⟩
        rw [run_cfg] at h2
        exact h2
    · exact .inr ⟨es1, es2 ++ [e], by rw [e1]; simp, h1⟩

/-- **C40.** Take any root broker and any cores, and any order in which cores join, federates register,
ask for initialization, leave, cores are closed and messages arrive.  If the broker has started, or any
federate has been let into initialization, then at some point before there were enough federates and
cores, all the required ones were among them, and every federate of every core that had not left was
inside its call of `enterInitializingMode` — except federates which registered on a core after that
core had already asked (`late_federate_not_waited_for` shows that this exception is real). -/
theorem start_waits (cfg : Cfg) {cores : List Core} (hf : ∀ c ∈ cores, Fresh c)
    (hn : (cores.map (·.name)).Nodup) {es : List SysEv} (hp : Proper (Sys.start cfg cores) es)
    (h : ((Sys.start cfg cores).run es).root.state = .operating ∨
      ∃ n ∈ ((Sys.start cfg cores).run es).nodes, ∃ f ∈ n.core.feds, f.started = true) :
    ∃ es1 es2, es = es1 ++ es2 ∧
      CanStart { cfg with isRoot := true } (Late (Sys.start cfg cores) es1)
        ((Sys.start cfg cores).run es1) := by
  rcases start_waits_aux cfg hf hn es.length es rfl hp with h1 | h1
  · rcases h with h | ⟨n, hn, f, hf, hs⟩
    · rw [h1.root.pre] at h; cases h
    · obtain ⟨i, hi⟩ := List.mem_iff_getElem?.mp hn
      rw [(h1.nodes i n hi).idle f hf] at hs
      cases hs
  · exact h1

end Verif.Init
