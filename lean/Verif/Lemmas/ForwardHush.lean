import Verif.Props.TreeEntrySpec
/-! One step of a forwarding coordinator that depends on a node that has not asked to enter executing mode. -/
namespace Verif
open Causal Deps Causality

theorem process_unheard {cmd : Msg} {d : DepInfo} (h : asked cmd = false) (hd : d.state = .initialized) :
    (d.process cmd).1.state = .initialized := by
  unfold asked at h
  unfold DepInfo.process
  cases hc : cmd.action <;> rw [hc] at h <;> dsimp only at h ⊢ <;> first
    | (cases h; done)
    | exact hd
    | (have h : cmd.iterationRequested = true := by simpa using h
       rw [h]; rfl)

namespace Fwd

/-- what is known of a node with part `k`, child `g` and parent `p` -/
structure Hush (k : Role) (g p : FedId) (kid : FedId → Prop) (w : Fwd) : Prop where
  gv : g ≠ invalidFed
  pv : p ≠ invalidFed
  kv : ¬ kid invalidFed
  child : k ≠ .down → Has g (fun d => Unheard d ∧ d.connection ≠ .parent) w.deps
  parent : k ≠ .root → Has p (fun d => Unheard d ∧ d.connection = .parent) w.deps
  top : k = .root → Each (fun d => d.connection ≠ .parent) w.deps
  flag : w.noParent = decide (k = .root)
  kids : k = .down → Each (fun d => kid d.fedID → d.connection = .child) w.deps
  actual : Each (fun d => d.minFedActual = invalidFed) w.deps
  nonneg : Each NextNonneg w.deps
  mode : w.executionMode = false
  entered : w.entered = false
  stored : w.downstream.state = .initialized

/-- what the node must not say -/
def Quiet (k : Role) (kid : FedId → Prop) (m : Msg) : Prop := m.dest ≠ parentBroker → k ≠ .down ∨ kid m.dest → asked m = false

theorem fold_unheard (ig : FedId) (c : Int) (l : List DepInfo) (hn : ∀ d ∈ l, NextNonneg d) : ∀ m : TimeData,
    ((m.state = .initialized ∧ m.next = initializationTime) ∨ ∃ d ∈ l, d.fedID ≠ ig ∧ d.state = .initialized) →
    (l.foldl (minTimeImpl ig c) m).state = .initialized := by
  induction l with
  | nil => intro m h; rcases h with h | ⟨d, hd, _⟩; exact h.1; cases hd
  | cons d l ih =>
    intro m h
    rw [List.foldl_cons]
    apply ih (fun x hx => hn x (by simp [hx]))
    by_cases hi : d.fedID = ig
    · have hs : (minTimeImpl ig c m d).state = m.state ∧ (minTimeImpl ig c m d).next = m.next := by
        unfold minTimeImpl
        simp only [hi, if_true]
        repeat' split
        all_goals exact ⟨rfl, rfl⟩
      rcases h with h | ⟨x, hx, h5, h6⟩
      · left; rw [hs.1, hs.2]; exact h
      · rcases List.mem_cons.1 hx with rfl | hx
        · exact absurd hi h5
        · exact .inr ⟨x, hx, h5, h6⟩
    · have hz : TimeState.initialized.rank = 0 := rfl
      have hkey : m.state = .initialized ∧ m.next = initializationTime →
          (minTimeImpl ig c m d).state = .initialized ∧ (minTimeImpl ig c m d).next = initializationTime := by
        intro hm
        unfold minTimeImpl
        split
        · unfold minTimeExec
          dsimp only
          refine ⟨?_, rfl⟩
          rw [if_neg (by rw [hm.1, hz]; omega)]
          repeat' split
          all_goals exact hm.1
        · rename_i hg
          have hx : executing d = true := by unfold executing; simp; omega
          have hnn := hn d (by simp) hx
          have hi0 : initializationTime = -1 := rfl
          have h1 : minTimeNext { m with minDe := minTimeMinDe m.minDe d c } d c = { m with minDe := minTimeMinDe m.minDe d c } := by
            unfold minTimeNext
            rw [if_neg (by dsimp only; rw [hm.2, hi0]; omega), if_neg (by dsimp only; rw [hm.2, hi0]; omega)]
          rw [h1]
          unfold minTimeTe
          split
          · exact hm
          · split <;> exact hm
      rcases h with h | ⟨x, hx, h5, h6⟩
      · exact .inl (hkey h)
      · rcases List.mem_cons.1 hx with rfl | hx
        · left
          by_cases hm : m.state = .initialized
          · unfold minTimeImpl
            rw [if_pos (by rw [h6]; decide), if_neg hi]
            unfold minTimeExec
            dsimp only
            refine ⟨?_, rfl⟩
            rw [if_neg (by rw [h6, hm]; omega)]
            repeat' split
            all_goals exact hm
          · unfold minTimeImpl
            rw [if_pos (by rw [h6]; decide), if_neg hi]
            unfold minTimeExec
            dsimp only
            refine ⟨?_, rfl⟩
            rw [if_pos (by rw [h6]; revert hm; cases m.state <;> decide)]
            exact h6
        · exact .inr ⟨x, hx, h5, h6⟩

theorem finish_state (m : TimeData) (r : Bool) : (minTimeInit (minTimeFinish m r)).state = m.state := by
  unfold minTimeInit minTimeFinish
  dsimp only
  repeat' split
  all_goals rfl

variable {k : Role} {g p : FedId} {kid : FedId → Prop} {w : Fwd}

theorem Hush.aggUp (h : Hush k g p kid w) (hk : k ≠ .down) : w.aggUp.state = .initialized := by
  unfold Fwd.aggUp
  obtain ⟨s, hs⟩ := minTimeUpstream_eq w.deps w.restrictive w.self invalidFed w.seq
  rw [hs]
  show (minTimeInit (minTimeFinish _ _)).state = _
  rw [finish_state]
  obtain ⟨d, hd, h1, h2, h3, h4⟩ := h.child hk
  have hm : d ∈ upParts w.deps w.self := by
    unfold upParts
    rw [List.mem_filter]
    exact ⟨hd, by rw [actual_ok (h.actual d hd)]; simp [h2, h4]⟩
  exact fold_unheard _ _ _ (fun x hx => h.nonneg x (List.mem_filter.mp hx).1) _ (.inr ⟨d, hm, by rw [h1]; exact h.gv, h3.1⟩)

theorem downState (ds : Deps) (r : Bool) (self ig : FedId) (c : Int) :
    (minTimeDownstream ds r self ig c).state = ((downParts ds self).foldl (minTimeImpl ig c) (TimeData.ofStart maxVal .error)).state := by
  obtain ⟨s, hs⟩ := minTimeDownstream_eq ds r self ig c
  rw [hs]
  show (minTimeInit (minTimeFinish _ _)).state = _
  rw [finish_state]

theorem Hush.aggDown (h : Hush k g p kid w) : w.aggDown.state = .initialized := by
  unfold Fwd.aggDown
  rw [h.flag]
  by_cases hk : k = .root
  · simp only [hk, decide_true, if_true]
    exact h.aggUp (by rw [hk]; decide)
  · simp only [hk, decide_false, Bool.false_eq_true, if_false]
    rw [downState]
    obtain ⟨d, hd, h1, h2, h3, h4⟩ := h.parent hk
    have hm : d ∈ downParts w.deps w.self := by
      unfold downParts
      rw [List.mem_filter]
      exact ⟨hd, by rw [actual_ok (h.actual d hd)]; simp [h2, h4]⟩
    exact fold_unheard _ _ _ (fun x hx => h.nonneg x (List.mem_filter.mp hx).1) _ (.inr ⟨d, hm, by rw [h1]; exact h.pv, h3.1⟩)

theorem Hush.minFed (h : Hush k g p kid w) (hk : k = .down) : ¬ kid w.aggDown.minFed := by
  unfold Fwd.aggDown
  rw [h.flag, hk]
  simp only [reduceCtorEq, decide_false, Bool.false_eq_true, if_false]
  rcases downstream_minFed w.deps w.restrictive w.self invalidFed w.seq with e | ⟨d, hd, h1, h2⟩
  · rw [e]; exact h.kv
  · intro e
    rw [← h1] at e
    exact h2 (h.kids hk d hd e)

theorem not_ready {ds : Deps} {x : FedId} {P : DepInfo → Prop} (h : Has x (fun d => Unheard d ∧ P d) ds) : ds.readyForExecEntry false false = false := by
  obtain ⟨d, hm, _, h2, h3, _⟩ := h
  unfold readyForExecEntry
  simp only [Bool.false_eq_true, if_false]
  rw [List.all_eq_false]
  refine ⟨d, hm, ?_⟩
  have := h3.2
  simp [h2, h3.1, this, TimeState.rank]

theorem Hush.mayNot (h : Hush k g p kid w) : w.mayEnter = false := by
  unfold mayEnter
  have h1 : w.deps.readyForExecEntry false false = false := by
    by_cases hk : k = .root
    · exact not_ready (h.child (by rw [hk]; decide))
    · exact not_ready (h.parent hk)
  rw [h1, h.stored]
  rfl

theorem asked_request (w : Fwd) (t : TimeData) (fed : FedId) (code : Int) (h : t.state = .initialized) :
    asked (w.request t fed code) = false := by
  unfold request TC.generateTimeRequest
  dsimp only
  rw [h]
  dsimp only
  split <;> rfl

/-! ### one action -/

structure HPre (k : Role) (g p : FedId) (kid : FedId → Prop) (a b : Fwd) : Prop where
  hush : Hush k g p kid a
  delayed : k ≠ .down → b.hasDelayed = false

/-- an action of the coordinator that keeps quiet -/
structure HAct (k : Role) (g p : FedId) (kid : FedId → Prop) (a b : Fwd) : Prop where
  self : b.self = a.self
  delayed : b.hasDelayed = false → a.hasDelayed = false
  good : HPre k g p kid a b → Hush k g p kid b
  out : ∃ l, b.out = a.out ++ l ∧ (HPre k g p kid a b → ∀ q ∈ l, ∀ m ∈ q.msgs, Quiet k kid m)

theorem HAct.refl (a : Fwd) : HAct k g p kid a a := ⟨rfl, id, fun h => h.hush, [], by simp, by simp⟩

theorem HAct.trans {a b d : Fwd} (h : HAct k g p kid a b) (h' : HAct k g p kid b d) : HAct k g p kid a d := by
  have hp : HPre k g p kid a d → HPre k g p kid a b := fun x => ⟨x.hush, fun y => h'.delayed (x.delayed y)⟩
  have hq : HPre k g p kid a d → HPre k g p kid b d := fun x => ⟨h.good (hp x), x.delayed⟩
  obtain ⟨l, h1, h3⟩ := h.out
  obtain ⟨l', k1, k3⟩ := h'.out
  refine ⟨h'.self.trans h.self, fun x => h.delayed (h'.delayed x), fun x => h'.good (hq x), l ++ l', by rw [k1, h1, List.append_assoc], ?_⟩
  intro pr q hqm m hm
  rcases List.mem_append.mp hqm with hqm | hqm
  · exact h3 (hp pr) q hqm m hm
  · exact k3 (hq pr) q hqm m hm

theorem HAct.of {a b : Fwd} (h1 : b.self = a.self) (h3 : b.hasDelayed = false → a.hasDelayed = false)
    (h4 : b.deps = a.deps) (h5 : b.noParent = a.noParent) (h6 : b.executionMode = a.executionMode) (h7 : b.entered = a.entered)
    (h8 : b.downstream = a.downstream) (h9 : b.out = a.out) : HAct k g p kid a b :=
  ⟨h1, h3, fun x => by
    obtain ⟨a1, a2, a3, a4, a5, a6, a7, a8, a9, a10, a11, a12, a13⟩ := x.hush
    exact ⟨a1, a2, a3, by rw [h4]; exact a4, by rw [h4]; exact a5, by rw [h4]; exact a6, by rw [h5]; exact a7, by rw [h4]; exact a8,
      by rw [h4]; exact a9, by rw [h4]; exact a10, by rw [h6]; exact a11, by rw [h7]; exact a12, by rw [h8]; exact a13⟩,
    [], by simp [h9], by simp⟩

theorem HAct.app (a : Fwd) (l : List Packet) (h2 : HPre k g p kid a a → ∀ q ∈ l, ∀ m ∈ q.msgs, Quiet k kid m) :
    HAct k g p kid a { a with out := a.out ++ l } :=
  ⟨rfl, id, fun x => by
    obtain ⟨a1, a2, a3, a4, a5, a6, a7, a8, a9, a10, a11, a12, a13⟩ := x.hush
    exact ⟨a1, a2, a3, a4, a5, a6, a7, a8, a9, a10, a11, a12, a13⟩, l, rfl, fun x => h2 ⟨x.hush, x.delayed⟩⟩

theorem hact_send (a : Fwd) (m : Msg) (h2 : HPre k g p kid a a → Quiet k kid m) : HAct k g p kid a (a.send m) :=
  .app a [.single m] (by
    intro pr q hq x hx
    simp only [List.mem_singleton] at hq; subst hq
    simp only [Packet.msgs, List.mem_singleton] at hx; subst hx
    exact h2 pr)

theorem asked_copy {m x : Msg} (h : asked m = false) (e : ∃ e i, x = { m with dest := e, extraDestData := i }) : asked x = false := by
  obtain ⟨e, i, rfl⟩ := e; exact h

theorem hact_transmitUp (a : Fwd) (m : Msg) (hw : HPre k g p kid a a → k ≠ .down → asked m = false) : HAct k g p kid a (a.transmitUp m) := by
  refine .app a _ ?_
  intro pr q hq x hx _ hk
  obtain ⟨⟨d, hm, h1, h2⟩, h3⟩ := upCopies_mem hq hx
  by_cases hk' : k = .down
  · rcases hk with hk | hk
    · exact absurd hk' hk
    · rw [h2] at hk; exact absurd (pr.hush.kids hk' d hm hk) h1
  · exact asked_copy (hw pr hk') h3

theorem hact_transmitDown (a : Fwd) (m : Msg) (s : FedId) (hw : HPre k g p kid a a → asked m = false) : HAct k g p kid a (a.transmitDown m s) :=
  .app a _ (fun pr _ hq _ hx _ _ => asked_copy (hw pr) (downCopies_mem hq hx).2)

theorem hact_refresh (a : Fwd) : HAct k g p kid a a.refresh.1 := by
  refine ⟨rfl, id, fun x => ?_, [], by simp [refresh], by simp⟩
  have hd := x.hush.aggDown
  obtain ⟨a1, a2, a3, a4, a5, a6, a7, a8, a9, a10, a11, a12, a13⟩ := x.hush
  refine ⟨a1, a2, a3, a4, a5, a6, a7, a8, a9, a10, a11, a12, ?_⟩
  unfold refresh
  dsimp only
  have h1 : (if a.aggDown.state.rank > TimeState.execReq.rank ∨ a.executionMode = false then a.downstream.update a.aggDown else (a.downstream, false)).1.state = .initialized := by
    split
    · exact hd
    · exact a13
  generalize (if a.aggUp.state.rank > TimeState.execReq.rank ∨ a.executionMode = false then a.upstream.update a.aggUp else (a.upstream, false)) = y
  split
  · exact h1
  · exact h1

theorem refresh_upState {a : Fwd} (h : Hush k g p kid a) (hk : k ≠ .down) : a.refresh.1.upstream.state = .initialized := by
  unfold refresh
  dsimp only
  rw [if_pos (.inr h.mode)]
  exact h.aggUp hk

theorem hact_tellUp (a : Fwd) (h : HPre k g p kid a a → k ≠ .down → a.upstream.state = .initialized) : HAct k g p kid a a.tellUp := by
  unfold tellUp
  dsimp only
  split
  · exact hact_transmitUp a _ (fun pr hk => asked_request _ _ _ _ (h pr hk))
  · exact .refl _

theorem hact_tellDown (a : Fwd) (h : HPre k g p kid a a → k = .down → ¬ kid a.downstream.minFed) : HAct k g p kid a a.tellDown := by
  have ht : ∀ s, HAct k g p kid a (a.transmitDown (a.request a.downstream invalidFed 0) s) :=
    fun s => hact_transmitDown a _ s (fun pr => asked_request _ _ _ _ pr.hush.stored)
  unfold tellDown
  dsimp only
  split
  · rename_i hd
    have h1 : HAct k g p kid a (if (a.request a.downstream invalidFed 0).action ≠ .ignore then a.transmitDown (a.request a.downstream invalidFed 0) a.downstream.minFed else a) := by
      split
      · exact ht _
      · exact .refl _
    have e2 : (if (a.request a.downstream invalidFed 0).action ≠ .ignore then a.transmitDown (a.request a.downstream invalidFed 0) a.downstream.minFed else a).hasDelayed = a.hasDelayed := by
      split <;> rfl
    have e3 : (if (a.request a.downstream invalidFed 0).action ≠ .ignore then a.transmitDown (a.request a.downstream invalidFed 0) a.downstream.minFed else a).downstream = a.downstream := by
      split <;> rfl
    have e4 : (if (a.request a.downstream invalidFed 0).action ≠ .ignore then a.transmitDown (a.request a.downstream invalidFed 0) a.downstream.minFed else a).deps = a.deps := by
      split <;> rfl
    generalize hb : (if (a.request a.downstream invalidFed 0).action ≠ .ignore then a.transmitDown (a.request a.downstream invalidFed 0) a.downstream.minFed else a) = b at h1 e2 e3 e4
    have h2 : HAct k g p kid b (b.sendExcluding a.downstream.minFed) := by
      refine hact_send b _ (fun pr _ hk => ?_)
      exfalso
      by_cases hk' : k = .down
      · rcases hk with hk | hk
        · exact hk hk'
        · rw [request_dest] at hk
          refine h ⟨?_, fun x => absurd hk' x⟩ hk' hk
          obtain ⟨a1, a2, a3, a4, a5, a6, a7, a8, a9, a10, a11, a12, a13⟩ := pr.hush
          rw [e4] at a4 a5 a6 a8 a9 a10
          have m1 : b.noParent = a.noParent ∧ b.executionMode = a.executionMode ∧ b.entered = a.entered := by
            rw [← hb]; split <;> exact ⟨rfl, rfl, rfl⟩
          exact ⟨a1, a2, a3, a4, a5, a6, by rw [← m1.1]; exact a7, a8, a9, a10, by rw [← m1.2.1]; exact a11, by rw [← m1.2.2]; exact a12,
            by rw [← e3]; exact a13⟩
      · have := pr.delayed hk'
        rw [e2, hd.1] at this
        cases this
    exact h1.trans h2
  · split
    · exact ht _
    · exact .refl _

theorem HAct.mix {F : Prop} {X : Time} {k' : Role} {g' c : FedId} {a b : Fwd} (h0 : Act F X k' g' c a b)
    (h : HPre k g p kid a b → HAct k g p kid a b) : HAct k g p kid a b := by
  obtain ⟨l, h1, _, _⟩ := h0.out
  by_cases e : HPre k g p kid a b
  · exact h e
  · exact ⟨h0.self, h0.delayed, fun x => absurd x e, l, h1, fun x => absurd x e⟩

theorem hact_updateTimeFactors (a : Fwd) : HAct k g p kid a a.updateTimeFactors := by
  refine .mix (act_updateTimeFactors (F := False) (X := 0) (k := .up) (g := 0) (c := 0) a) (fun pre => ?_)
  have hda := (act_updateTimeFactors (F := False) (X := 0) (k := .up) (g := 0) (c := 0) a).delayed
  have h0 := hact_refresh (k := k) (g := g) (p := p) (kid := kid) a
  have hmin : a.refresh.2.2 = true → a.refresh.1.downstream.minFed = a.aggDown.minFed := refresh_minFed a
  have hup : k ≠ .down → a.refresh.1.upstream.state = .initialized := refresh_upState pre.hush
  have hmode : a.refresh.1.executionMode = false := pre.hush.mode
  unfold updateTimeFactors
  dsimp only
  generalize a.refresh = r at h0 hmin hup hmode
  obtain ⟨w, u, d⟩ := r
  dsimp only at h0 hmin hup hmode ⊢
  have h1 : HAct k g p kid w (if (u || d) = true then w.tellUp else w) := by
    split
    · exact hact_tellUp w (fun _ => hup)
    · exact .refl _
  have e1 : (if (u || d) = true then w.tellUp else w).downstream = w.downstream ∧ (if (u || d) = true then w.tellUp else w).executionMode = w.executionMode := by
    unfold tellUp transmitUp
    dsimp only
    split
    · split <;> exact ⟨rfl, rfl⟩
    · exact ⟨rfl, rfl⟩
  generalize (if (u || d) = true then w.tellUp else w) = v at h1 e1
  refine (h0.trans h1).trans ?_
  split
  · rename_i hd
    refine hact_tellDown v (fun pr hk => ?_)
    rw [e1.1, hmin hd]
    exact pre.hush.minFed hk
  · rw [e1.2, hmode]
    simp only [Bool.and_false, Bool.false_eq_true, if_false]
    exact .refl _

theorem hact_checkIssues (a : Fwd) : HAct k g p kid a a.checkIssues := by
  have h1 : HAct k g p kid a { a with hasDelayed := a.hasDelayed || a.deps.any Deps.delayedMutual } :=
    .of rfl (fun h => by simp at h; exact h.1) rfl rfl rfl rfl rfl rfl
  unfold checkIssues
  dsimp only
  split
  · exact h1.trans (hact_send _ _ (fun _ hn => absurd rfl hn))
  · exact h1

/-- the command may be heard -/
def Heard (k : Role) (g p : FedId) (cmd : Msg) : Prop :=
  (k ≠ .down → cmd.source = g → asked cmd = false) ∧ (k ≠ .root → cmd.source = p → asked cmd = false) ∧ Deps.nonneg cmd

theorem hact_table (a : Fwd) (cmd : Msg) (hs : Heard k g p cmd) : HAct k g p kid a { a with deps := (a.deps.updateTime cmd).1 } := by
  refine ⟨rfl, id, fun x => ?_, [], by simp, by simp⟩
  obtain ⟨a1, a2, a3, a4, a5, a6, a7, a8, a9, a10, a11, a12, a13⟩ := x.hush
  refine ⟨a1, a2, a3, fun hk => (a4 hk).updateTime cmd (fun e d hd => ?_), fun hk => (a5 hk).updateTime cmd (fun e d hd => ?_),
    fun hk => (a6 hk).updateTime cmd (fun d _ hd => by rw [process_conn]; exact hd), a7,
    fun hk => (a8 hk).updateTime cmd (fun d _ hd => by rw [process_conn, process_fedID]; exact hd),
    a9.updateTime cmd (fun d _ hd => by rw [process_actual]; exact hd),
    a10.updateTime cmd (fun d e hd => (kept_nextNonneg a.self).process cmd d hs.2.2 e hd), a11, a12, a13⟩
  · exact ⟨⟨process_unheard (hs.1 hk e) hd.1.1, by rw [process_conn]; exact hd.1.2⟩, by rw [process_conn]; exact hd.2⟩
  · exact ⟨⟨process_unheard (hs.2.1 hk e) hd.1.1, by rw [process_conn]; exact hd.1.2⟩, by rw [process_conn]; exact hd.2⟩

theorem hact_removeDependent (a : Fwd) (x : FedId) : HAct k g p kid a { a with deps := a.deps.removeDependent x } := by
  refine ⟨rfl, id, fun y => ?_, [], by simp, by simp⟩
  obtain ⟨a1, a2, a3, a4, a5, a6, a7, a8, a9, a10, a11, a12, a13⟩ := y.hush
  exact ⟨a1, a2, a3, fun hk => (a4 hk).removeDependent x (fun _ h => h), fun hk => (a5 hk).removeDependent x (fun _ h => h),
    fun hk => each_removeDependent (a6 hk) x (fun _ h => h), a7, fun hk => each_removeDependent (a8 hk) x (fun _ h => h),
    each_removeDependent a9 x (fun _ h => h), each_removeDependent a10 x (fun _ h => h), a11, a12, a13⟩

theorem hact_processBase (a : Fwd) (cmd : Msg) (hs : Heard k g p cmd) : HAct k g p kid a (a.processBase cmd).1 := by
  unfold processBase
  dsimp only
  have tail : ∀ w : Fwd, HAct k g p kid w (if (w.deps.updateTime cmd).2 = .processedAndCheck then
      ({ w with deps := (w.deps.updateTime cmd).1 } : Fwd).checkIssues else { w with deps := (w.deps.updateTime cmd).1 }) := by
    intro w
    split
    · exact (hact_table w cmd hs).trans (hact_checkIssues _)
    · exact hact_table w cmd hs
  split <;> first
    | exact tail a
    | exact (hact_removeDependent a cmd.source).trans (tail _)

theorem hact_processTimeMessage (a : Fwd) (cmd : Msg) (hs : Heard k g p cmd) : HAct k g p kid a (a.processTimeMessage cmd).1 := by
  unfold processTimeMessage
  dsimp only
  split
  · exact (hact_processBase a cmd hs).trans (.of rfl id rfl rfl rfl rfl rfl rfl)
  · exact hact_processBase a cmd hs

theorem hact_checkExecEntry (a : Fwd) : HAct k g p kid a a.checkExecEntry.1 := by
  refine .mix (act_checkExecEntry (F := False) (X := 0) (k := .up) (g := 0) (c := 0) a) (fun pre => ?_)
  unfold checkExecEntry
  rw [pre.hush.mayNot]
  exact .refl _

theorem hact_tryEnter (a : Fwd) (o : Bool) : HAct k g p kid a (a.tryEnter o) := by
  refine .mix (act_tryEnter (F := False) (X := 0) (k := .up) (g := 0) (c := 0) a o) (fun pre => ?_)
  unfold tryEnter checkExecEntry
  rw [pre.hush.mayNot]
  dsimp only
  simp only [Bool.false_eq_true, if_false]
  split
  · exact hact_updateTimeFactors _
  · exact .refl _

theorem hact_sendTimingInfo (a : Fwd) : HAct k g p kid a a.sendTimingInfo := by
  refine .app a _ (fun _ q hq m hm _ _ => ?_)
  obtain ⟨d, _, h⟩ := List.mem_filterMap.mp hq
  split at h
  · cases h
    simp only [Packet.msgs, List.mem_singleton] at hm
    subst hm
    rfl
  · cases h

theorem hact_enteringExecMode (a : Fwd) : HAct k g p kid a a.enteringExecMode := by
  unfold enteringExecMode
  split
  · exact .refl _
  · dsimp only
    have h0 : HAct k g p kid a { a with checkingExec := true } := .of rfl id rfl rfl rfl rfl rfl rfl
    have h1 : HAct k g p kid a (if a.deps = [] then { a with checkingExec := true } else ({ a with checkingExec := true } : Fwd).updateTimeFactors.checkIssues) := by
      split
      · exact h0
      · exact (h0.trans (hact_updateTimeFactors _)).trans (hact_checkIssues _)
    generalize (if a.deps = [] then { a with checkingExec := true } else ({ a with checkingExec := true } : Fwd).updateTimeFactors.checkIssues) = b at h1
    split
    · exact h1
    · refine (h1.trans ?_).trans (hact_sendTimingInfo _)
      refine ⟨rfl, id, fun x => ?_, [], by simp, by simp⟩
      obtain ⟨a1, a2, a3, a4, a5, a6, a7, a8, a9, a10, a11, a12, a13⟩ := x.hush
      refine ⟨a1, a2, a3, a4, a5, a6, ?_, a8, a9, a10, a11, a12, a13⟩
      show (!(b.deps.any fun d => d.connection == Conn.parent)) = _
      by_cases hk : k = .root
      · have : (b.deps.any fun d => d.connection == Conn.parent) = false := by
          rw [List.any_eq_false]; intro d hd; have := a6 hk d hd; simpa using this
        rw [this, hk]; rfl
      · obtain ⟨d, hd, _, _, _, h3⟩ := a5 hk
        have : (b.deps.any fun d => d.connection == Conn.parent) = true := List.any_eq_true.mpr ⟨d, hd, by simp [h3]⟩
        rw [this]; simp [hk]

theorem hact_dependencyUpdate (a : Fwd) (cmd : Msg) (hs : Heard k g p cmd) (hr : rewiring cmd = false) :
    HAct k g p kid a (a.processDependencyUpdate cmd) := by
  unfold processDependencyUpdate changeDeps
  unfold rewiring at hr
  cases hc : cmd.action <;> rw [hc] at hr <;> first | (cases hr; done) | skip
  all_goals dsimp only
  all_goals first
    | exact hact_table a cmd hs
    | exact .refl _

theorem hact_handle (a : Fwd) (cmd : Msg) (hs : Heard k g p cmd) (hr : rewiring cmd = false) : HAct k g p kid a (a.handle cmd) := by
  have h1 : HAct k g p kid a (a.processTimeMessage cmd).1 := hact_processTimeMessage a cmd hs
  have h2 : HAct k g p kid a (a.processDependencyUpdate cmd) := hact_dependencyUpdate a cmd hs hr
  unfold rewiring at hr
  unfold handle
  split
  · unfold handleCore
    dsimp only
    cases hc : cmd.action <;> rw [hc] at hr <;> first | (cases hr; done) | skip
    all_goals dsimp only
    all_goals repeat' split
    all_goals first
      | exact .refl _
      | exact h1
      | exact h1.trans (hact_tryEnter _ _)
      | exact h1.trans (hact_updateTimeFactors _)
  · unfold handleBroker
    dsimp only
    cases hc : cmd.action <;> rw [hc] at hr <;> first | (cases hr; done) | skip
    all_goals dsimp only
    all_goals repeat' split
    all_goals first
      | exact .refl _
      | exact h1
      | exact h2
      | exact h1.trans (hact_tryEnter _ _)
      | exact h1.trans (hact_updateTimeFactors _)

theorem hact_start (a : Fwd) (h : a.core = true → a.deps.hasActive = true) : HAct k g p kid a a.start := by
  have h0 : HAct k g p kid a { a with operating := true } := .of rfl id rfl rfl rfl rfl rfl rfl
  have h1 := (h0.trans (hact_enteringExecMode _)).trans (hact_tryEnter _ false)
  unfold start
  dsimp only
  rw [(same_start a).1, (same_start a).2]
  split
  · rename_i hn
    simp only [Bool.and_eq_true, Bool.not_eq_true'] at hn
    rw [h hn.1] at hn
    exact absurd hn.2 (by simp)
  · exact h1

end Fwd
end Verif
