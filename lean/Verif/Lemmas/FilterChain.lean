import Verif.Lemmas.Filters
/-!
# Lemmas about filters: one message through a chain
-/
namespace Verif.Filt

/-- the filter federate lives in these surroundings -/
structure FF.In (s : FF) (E : Env) : Prop where
  fed : s.fed = E.fed
  epts : s.epts = E.epts
  ops : s.ops = E.ops

/-- effects which only send messages -/
structure Env.Plain (E : Env) (es : List Eff) : Prop where
  crash : Eff.crash ∉ es
  wireOk : ∀ c ∈ es.filterMap Eff.toWire, E.WireOk c
  keyD : ∀ c ∈ es.filterMap Eff.toWire, E.keyDest c = none
  held : ∀ e ∈ es, e.isHeld = false

/-- what taking a message through (the rest of) a chain amounts to -/
structure Env.Res (E : Env) (s s' : FF) (fid : Int) (es : List Eff) (spec : List (Msg × (Int × Int))) :
    Prop where
  hand : (E.effHand es).Perm spec
  recv : E.effRecv es = []
  plain : E.Plain es
  mark : (s' = s ∧ (es.filterMap Eff.toWire).filterMap E.key = [] ∧ ∀ e ∈ es, e.isHold = false) ∨
    (∃ t a b, s' = ({ s with counter := s.counter + 1 }.mark fid s.counter t).1 ∧
      (es.filterMap Eff.toWire).filterMap E.key = [(fid, s.counter)] ∧
      es = a ++ ({ s with counter := s.counter + 1 }.mark fid s.counter t).2 ++ b ∧
      (∀ e ∈ a, e.isHold = false) ∧ ∀ e ∈ b, e.isHold = false)

theorem mark_effs (s : FF) (fid pid t : Int) :
    (s.mark fid pid t).2.filterMap Eff.toWire = [] ∧ (s.mark fid pid t).2.filterMap Eff.toHanded = [] ∧
    (s.mark fid pid t).2.filterMap Eff.toRecv = [] ∧ (∀ e ∈ (s.mark fid pid t).2, e.isHeld = false) ∧
    Eff.crash ∉ (s.mark fid pid t).2 := by
  unfold FF.mark
  dsimp only
  split <;> simp [Eff.toWire, Eff.toHanded, Eff.toRecv, Eff.isHeld]

theorem unmark_effs (s : FF) (fid pid : Int) :
    (s.unmark fid pid).2.filterMap Eff.toWire = [] ∧ (s.unmark fid pid).2.filterMap Eff.toHanded = [] ∧
    (s.unmark fid pid).2.filterMap Eff.toRecv = [] ∧ (∀ e ∈ (s.unmark fid pid).2, e.isHeld = false) ∧
    Eff.crash ∉ (s.unmark fid pid).2 := by
  unfold FF.unmark
  dsimp only
  split <;> simp [Eff.toWire, Eff.toHanded, Eff.toRecv, Eff.isHeld]

/-- effects before others -/
theorem Env.Res.prepend {E : Env} {s s' : FF} {fid : Int} {es e1 : List Eff}
    {spec A : List (Msg × (Int × Int))} (h : E.Res s s' fid es spec) (h1 : (E.effHand e1).Perm A)
    (h2 : E.effRecv e1 = []) (h3 : E.Plain e1) (h4 : (e1.filterMap Eff.toWire).filterMap E.key = [])
    (h5 : ∀ e ∈ e1, e.isHold = false) : E.Res s s' fid (e1 ++ es) (A ++ spec) := by
  refine ⟨?_, ?_, ⟨?_, ?_, ?_, ?_⟩, ?_⟩
  · exact (effHand_append E e1 es).trans (h1.append h.hand)
  · have := effRecv_append E e1 es
    rw [h2, h.recv] at this
    exact List.perm_nil.mp this
  · simp [h3.crash, h.plain.crash]
  · intro c hc
    rw [List.filterMap_append, List.mem_append] at hc
    exact hc.elim (h3.wireOk c) (h.plain.wireOk c)
  · intro c hc
    rw [List.filterMap_append, List.mem_append] at hc
    exact hc.elim (h3.keyD c) (h.plain.keyD c)
  · intro e he
    rw [List.mem_append] at he
    exact he.elim (h3.held e) (h.plain.held e)
  · rcases h.mark with ⟨m1, m2, m3⟩ | ⟨t, a, b, m1, m2, m3, m4, m5⟩
    · refine .inl ⟨m1, ?_, ?_⟩
      · rw [List.filterMap_append, List.filterMap_append, h4, m2]; rfl
      · intro e he
        rw [List.mem_append] at he
        exact he.elim (h5 e) (m3 e)
    · refine .inr ⟨t, e1 ++ a, b, m1, ?_, ?_, ?_, m5⟩
      · rw [List.filterMap_append, List.filterMap_append, h4, m2]; rfl
      · rw [m3]; simp
      · intro e he
        rw [List.mem_append] at he
        exact he.elim (h5 e) (m4 e)

/-- delivering fresh messages -/
theorem deliver_effs (E : Env) (ms : List Msg) :
    E.effHand (ms.map (fun m => .deliver (Cmd.ofMsg m))) = ms.map (fun m => (m, byName)) ∧
    E.effRecv (ms.map (fun m => .deliver (Cmd.ofMsg m))) = [] ∧
    (ms.map (fun m => Eff.deliver (Cmd.ofMsg m))).filterMap Eff.toWire = [] := by
  have h1 : (ms.map (fun m => Eff.deliver (Cmd.ofMsg m))).filterMap Eff.toHanded = ms.map Cmd.ofMsg := by
    induction ms with
    | nil => rfl
    | cons m ms ih =>
      rw [List.map_cons, List.filterMap_cons]
      simp only [Eff.toHanded, Cmd.ofMsg, if_true, List.map_cons, List.cons.injEq, true_and]
      exact ih
  have h2 : (ms.map (fun m => Eff.deliver (Cmd.ofMsg m))).filterMap Eff.toWire = [] := by
    rw [List.filterMap_eq_nil_iff]
    intro e he
    obtain ⟨m, -, rfl⟩ := List.mem_map.mp he
    rfl
  have h3 : (ms.map (fun m => Eff.deliver (Cmd.ofMsg m))).filterMap Eff.toRecv = [] := by
    rw [List.filterMap_eq_nil_iff]
    intro e he
    obtain ⟨m, -, rfl⟩ := List.mem_map.mp he
    rfl
  refine ⟨?_, ?_, h2⟩
  · unfold Env.effHand
    rw [h1, h2, List.map_map]
    simp [Cmd.ofMsg, byName]
  · unfold Env.effRecv
    rw [h2, h3]; rfl

/-- a cloning filter -/
theorem execute_clone {E : Env} {s : FF} (hs : s.In E) {f : FInfo} (hf : E.Works f) (hc : f.cloning = true)
    (c : Cmd) : ∃ e1, s.execute c f = (c, true, e1) ∧
      (E.effHand e1).Perm ((E.clones f c.msg).map (fun m => (m, byName))) ∧ E.effRecv e1 = [] ∧
      E.Plain e1 ∧ (e1.filterMap Eff.toWire).filterMap E.key = [] ∧ ∀ e ∈ e1, e.isHold = false := by
  obtain ⟨-, hw⟩ := hf
  unfold FF.execute
  rw [hs.fed, hs.ops]
  by_cases hl : f.core = E.fed
  · rw [if_pos hl] at hw
    obtain ⟨op, hop⟩ := hw
    rw [if_pos hl, hop]
    dsimp only
    rw [if_pos hc]
    obtain ⟨d1, d2, d3⟩ := deliver_effs E (op.vec c.msg)
    refine ⟨_, rfl, ?_, d2, ⟨?_, ?_, ?_, ?_⟩, ?_, ?_⟩
    · rw [d1]
      unfold Env.clones Env.op
      rw [if_pos hl, hop]
    · simp
    · rw [d3]; simp
    · rw [d3]; simp
    · intro e he
      obtain ⟨m, -, rfl⟩ := List.mem_map.mp he
      rfl
    · rw [d3]; rfl
    · intro e he
      obtain ⟨m, -, rfl⟩ := List.mem_map.mp he
      rfl
  · rw [if_neg hl] at hw
    obtain ⟨hfi, h1, h2, h3, h4⟩ := hw
    rw [if_neg hl, if_pos hc]
    refine ⟨_, rfl, ?_, ?_, ⟨?_, ?_, ?_, ?_⟩, ?_, ?_⟩
    · simp only [Env.effHand, List.filterMap_cons, Eff.toHanded, Eff.toWire, List.filterMap_nil,
        List.map_nil, List.nil_append, List.flatMap_cons, List.flatMap_nil, List.append_nil, Env.pendHand,
        List.nil_append]
      have : E.toClone { c with act := .forFilter, dst := (f.core, f.handle) } = true := by
        unfold Env.toClone
        dsimp only
        rw [h1]
        exact h3.trans hc
      rw [if_pos this, clones_of_dst E (f := f) rfl]
    · rfl
    · simp
    · intro c' h'
      simp only [List.filterMap_cons, Eff.toWire, List.filterMap_nil, List.mem_singleton] at h'
      subst h'
      refine ⟨fun _ => ⟨hl, hfi, h1, h2, fun _ => h4 hc, fun h => absurd rfl h⟩, (nomatch ·), (nomatch ·),
        (nomatch ·), (nomatch ·), (nomatch ·), .inl rfl⟩
    · intro c' h'
      simp only [List.filterMap_cons, Eff.toWire, List.filterMap_nil, List.mem_singleton] at h'
      subst h'
      rfl
    · intro e he; rw [List.mem_singleton] at he; subst he; rfl
    · rfl
    · intro e he; rw [List.mem_singleton] at he; subst he; rfl

/-- a local filter which is not cloning -/
theorem execute_local {E : Env} {s : FF} (hs : s.In E) {f : FInfo} (hf : E.Works f) (hc : f.cloning = false)
    (hl : f.core = E.fed) (c : Cmd) :
    (E.apply f c.msg = none ∧ s.execute c f = (Cmd.ofAct .ignore, false, [])) ∨
    ∃ m, E.apply f c.msg = some m ∧ s.execute c f = (Cmd.ofMsg m, true, []) := by
  obtain ⟨-, hw⟩ := hf
  rw [if_pos hl] at hw
  obtain ⟨op, hop⟩ := hw
  unfold FF.execute Env.apply Env.op
  rw [hs.fed, hs.ops, if_pos hl, if_pos hl, hop]
  dsimp only
  rw [hc]
  cases op.proc c.msg with
  | none => exact .inl ⟨rfl, rfl⟩
  | some m => exact .inr ⟨m, rfl, rfl⟩

/-- a filter of another core which is not cloning -/
theorem execute_remote {E : Env} {s : FF} (hs : s.In E) {f : FInfo} (hc : f.cloning = false)
    (hl : f.core ≠ E.fed) (c : Cmd) :
    s.execute c f = ({ c with dst := (f.core, f.handle) }, false, []) := by
  unfold FF.execute
  rw [hs.fed, if_neg hl, hc]
  rfl

/-- the last request of a chain -/
theorem last_res {E : Env} {s : FF} {f : FInfo} (hf : E.Works f) (hc : f.cloning = false)
    (hl : f.core ≠ E.fed) (fid : Int) {c : Cmd} (hd : c.dst = (f.core, f.handle)) (ha : c.act = .forFilter)
    (d : Int × Int) : E.Res s s fid [.deliver c] (E.outcome [f] c.msg d) := by
  obtain ⟨-, hw⟩ := hf
  rw [if_neg hl] at hw
  obtain ⟨hfi, h1, h2, h3, h4⟩ := hw
  have hn : ¬ c.act = .send := by rw [ha]; decide
  have hwire : [Eff.deliver c].filterMap Eff.toWire = [c] := by
    simp [Eff.toWire, hn]
  have hhand : [Eff.deliver c].filterMap Eff.toHanded = [] := by
    simp [Eff.toHanded, hn]
  refine ⟨?_, ?_, ⟨?_, ?_, ?_, ?_⟩, .inl ⟨rfl, ?_, ?_⟩⟩
  · unfold Env.effHand
    rw [hhand, hwire]
    simp only [List.map_nil, List.nil_append, List.flatMap_cons, List.flatMap_nil, List.append_nil]
    unfold Env.pendHand
    rw [ha]
    dsimp only
    have : E.toClone c = false := by
      unfold Env.toClone
      rw [hd, h1]
      exact h3.trans hc
    rw [this, apply_of_dst E hd]
    unfold Env.outcome
    rw [hc]
    simp only [Bool.false_eq_true, if_false]
    cases E.apply f c.msg with
    | none => exact .refl _
    | some m => exact .refl _
  · unfold Env.effRecv
    rw [hwire]
    simp [Eff.toRecv, Env.pendRecv, ha]
  · simp
  · rw [hwire]
    intro c' h'
    rw [List.mem_singleton] at h'
    subst h'
    refine ⟨fun _ => ⟨by rw [hd]; exact hl, hfi, by rw [hd]; exact h1, h2, ?_, fun h => absurd ha h⟩, ?_, ?_, ?_,
      ?_, ?_, ?_⟩
    · intro hx; rw [h3, hc] at hx; cases hx
    all_goals rw [ha]
    · exact (nomatch ·)
    · exact (nomatch ·)
    · exact (nomatch ·)
    · exact (nomatch ·)
    · exact (nomatch ·)
    · exact .inl rfl
  · rw [hwire]
    intro c' h'
    rw [List.mem_singleton] at h'
    subst h'
    unfold Env.keyDest
    rw [ha]
  · intro e he; rw [List.mem_singleton] at he; subst he; rfl
  · rw [hwire]
    simp [Env.key, ha]
  · intro e he; rw [List.mem_singleton] at he; subst he; rfl

/-- a request of a chain which is to come back -/
theorem ret_res {E : Env} {s : FF} {f : FInfo} (hf : E.Works f) (hc : f.cloning = false)
    (hl : f.core ≠ E.fed) {c : Cmd} (hd : c.dst = (f.core, f.handle)) (ha : c.act = .forFilterRet)
    {h : Int} {e : Ept} (he : E.epts h = some e) (hsrc : c.src = (e.fed, h)) (hq : c.seq = s.counter)
    {fs : List FInfo} (hfs : e.chain.drop (c.counter + 1) = fs) (hlen : c.counter + 1 < e.chain.length)
    (hnc : ∀ g ∈ fs, g.cloning = false)
    (t : Int) (d : Int × Int) :
    E.Res s ({ s with counter := s.counter + 1 }.mark e.fed s.counter t).1 e.fed
      (({ s with counter := s.counter + 1 }.mark e.fed s.counter t).2 ++ [.deliver c])
      (E.outcome (f :: fs) c.msg d) := by
  obtain ⟨-, hw⟩ := hf
  rw [if_neg hl] at hw
  obtain ⟨hfi, h1, h2, h3, h4⟩ := hw
  obtain ⟨m1, m2, m3, m4, m5⟩ := mark_effs { s with counter := s.counter + 1 } e.fed s.counter t
  have hn : ¬ c.act = .send := by rw [ha]; decide
  have hwire : (({ s with counter := s.counter + 1 }.mark e.fed s.counter t).2 ++
      [Eff.deliver c]).filterMap Eff.toWire = [c] := by
    rw [List.filterMap_append, m1]
    simp [Eff.toWire, hn]
  have hhand : (({ s with counter := s.counter + 1 }.mark e.fed s.counter t).2 ++
      [Eff.deliver c]).filterMap Eff.toHanded = [] := by
    rw [List.filterMap_append, m2]
    simp [Eff.toHanded, hn]
  have hrecv : (({ s with counter := s.counter + 1 }.mark e.fed s.counter t).2 ++
      [Eff.deliver c]).filterMap Eff.toRecv = [] := by
    rw [List.filterMap_append, m3]
    simp [Eff.toRecv]
  refine ⟨?_, ?_, ⟨?_, ?_, ?_, ?_⟩, .inr ⟨t, [], [.deliver c], rfl, ?_, ?_, ?_, ?_⟩⟩
  · unfold Env.effHand
    rw [hhand, hwire]
    simp only [List.map_nil, List.nil_append, List.flatMap_cons, List.flatMap_nil, List.append_nil]
    unfold Env.pendHand
    rw [ha]
    dsimp only
    rw [apply_of_dst E hd, hsrc]
    simp only [he]
    have ho : E.outcome (f :: fs) c.msg d =
        (match E.apply f c.msg with | none => [] | some m' => E.outcome fs m' byName) := by
      rw [Env.outcome, if_neg (by simp [hc])]; cases E.apply f c.msg <;> rfl
    rw [ho]
    cases E.apply f c.msg with
    | none => exact .refl _
    | some m =>
      show (E.outcome (List.drop (c.counter + 1) e.chain) m byName).Perm (E.outcome fs m byName)
      rw [hfs]
  · unfold Env.effRecv
    rw [hwire, hrecv]
    simp [Env.pendRecv, ha]
  · simp [m5]
  · rw [hwire]
    intro c' h'
    rw [List.mem_singleton] at h'
    subst h'
    refine ⟨fun _ => ⟨by rw [hd]; exact hl, hfi, by rw [hd]; exact h1, h2, ?_, fun _ => h3.trans hc⟩, ?_, ?_, ?_,
      ?_, ?_, ?_⟩
    · intro hx; rw [h3, hc] at hx; cases hx
    · intro _; exact ⟨e, by rw [hsrc]; exact he, by rw [hsrc], hlen, by rw [hfs]; exact hnc⟩
    all_goals rw [ha]
    · exact (nomatch ·)
    · exact (nomatch ·)
    · exact (nomatch ·)
    · exact (nomatch ·)
    · exact .inl rfl
  · rw [hwire]
    intro c' h'
    rw [List.mem_singleton] at h'
    subst h'
    unfold Env.keyDest
    rw [ha]
  · intro x hx
    rw [List.mem_append, List.mem_singleton] at hx
    rcases hx with hx | rfl
    · exact m4 x hx
    · rfl
  · rw [hwire]
    simp only [List.filterMap_cons, List.filterMap_nil, Env.key, ha, hsrc, he, Option.map_some, hq]
  · simp
  · intro x hx; cases hx
  · intro x hx; rw [List.mem_singleton] at hx; subst hx; rfl

/-- nothing is left of the chain: the message is sent on -/
theorem end_res {E : Env} {s : FF} (fid : Int) {c : Cmd} (ha : c.act = .send) :
    E.Res s s fid [.deliver c] (E.outcome [] c.msg c.dst) := by
  have hwire : [Eff.deliver c].filterMap Eff.toWire = [] := by simp [Eff.toWire, ha]
  have hhand : [Eff.deliver c].filterMap Eff.toHanded = [c] := by simp [Eff.toHanded, ha]
  refine ⟨?_, ?_, ⟨by simp, by rw [hwire]; simp, by rw [hwire]; simp, ?_⟩, .inl ⟨rfl, by rw [hwire]; rfl, ?_⟩⟩
  · unfold Env.effHand; rw [hhand, hwire]; exact .refl _
  · unfold Env.effRecv; rw [hwire]; simp [Eff.toRecv]
  · intro e he; rw [List.mem_singleton] at he; subst he; rfl
  · intro e he; rw [List.mem_singleton] at he; subst he; rfl

/-- the message was dropped -/
theorem drop_res {E : Env} {s : FF} (fid : Int) : E.Res s s fid [] [] :=
  ⟨.refl _, rfl, ⟨by simp, by simp, by simp, by simp⟩, .inl ⟨rfl, rfl, by simp⟩⟩

/-- what `Sys.post` does with the result of the walk -/
def final (c : Cmd) : List Eff := if c.act = .ignore then [] else [.deliver c]

theorem final_ignore : final (Cmd.ofAct .ignore) = [] := rfl

theorem final_of {c : Cmd} (h : c.act ≠ .ignore) : final c = [.deliver c] := by
  unfold final; rw [if_neg h]

/-- **a message on its way from the endpoint** -/
theorem walk_res {E : Env} {s : FF} (hs : s.In E) {h : Int} {e : Ept} (he : E.epts h = some e)
    (hg : E.GoodChain e.chain) : ∀ (fs pre : List FInfo) (c : Cmd), e.chain = pre ++ fs → c.act = .send →
    ((∀ g ∈ pre, g.cloning = true) → c.src = (e.fed, h)) →
    (∀ g ∈ pre, g.core ≠ E.fed → g.cloning = true) →
    E.Res s (s.walk e.fed e.chain.length fs pre.length c).1 e.fed
      ((s.walk e.fed e.chain.length fs pre.length c).2.2 ++ final (s.walk e.fed e.chain.length fs pre.length c).2.1)
      (E.outcome fs c.msg c.dst) := by
  intro fs
  induction fs with
  | nil =>
    intro pre c _ ha _ _
    unfold FF.walk
    dsimp only
    rw [final_of (by rw [ha]; decide)]
    exact end_res e.fed ha
  | cons f fs ih =>
    intro pre c hch ha hsrc hrem
    have hmem : f ∈ e.chain := by rw [hch]; simp
    have hw := hg.works f hmem
    unfold FF.walk
    rw [hw.1]
    simp only [Bool.false_eq_true, if_false]
    have hch' : e.chain = (pre ++ [f]) ++ fs := by rw [hch]; simp
    have hplen : (pre ++ [f]).length = pre.length + 1 := by simp
    by_cases hcl : f.cloning = true
    · obtain ⟨e1, x1, x2, x3, x4, x5, x6⟩ := execute_clone hs hw hcl c
      rw [x1]
      dsimp only
      rw [if_pos rfl]
      have hI := ih (pre ++ [f]) c hch' ha (fun hall => hsrc (fun g hg' => hall g (by simp [hg'])))
        (by
          intro g hg' hne
          rw [List.mem_append, List.mem_singleton] at hg'
          rcases hg' with hg' | rfl
          · exact hrem g hg' hne
          · exact hcl)
      rw [hplen] at hI
      unfold Env.outcome
      rw [if_pos hcl, List.append_assoc]
      exact hI.prepend x2 x3 x4 x5 x6
    · have hcl' : f.cloning = false := by simpa using hcl
      by_cases hl : f.core = E.fed
      · rcases execute_local hs hw hcl' hl c with ⟨x1, x2⟩ | ⟨m, x1, x2⟩
        · rw [x2]
          dsimp only
          unfold Env.outcome
          rw [if_neg hcl, x1]
          exact drop_res e.fed
        · rw [x2]
          dsimp only
          rw [if_pos rfl]
          have hI := ih (pre ++ [f]) (Cmd.ofMsg m) hch' rfl
            (fun hall => absurd (hall f (by simp)) hcl)
            (by
              intro g hg' hne
              rw [List.mem_append, List.mem_singleton] at hg'
              rcases hg' with hg' | rfl
              · exact hrem g hg' hne
              · exact absurd hl hne)
          rw [hplen] at hI
          unfold Env.outcome
          rw [if_neg hcl, x1]
          exact hI
      · rw [execute_remote hs hcl' hl c]
        dsimp only
        have hni : ¬ c.act = .ignore := by rw [ha]; decide
        rw [if_neg (by simp), if_neg (by simp), if_neg hni]
        have hle : pre.length < e.chain.length := by rw [hch]; simp
        have hmod : pre.length % 65536 = pre.length := Nat.mod_eq_of_lt (Nat.lt_of_lt_of_le hle hg.len)
        by_cases hlt : pre.length + 1 < e.chain.length
        · rw [if_pos hlt]
          dsimp only
          rw [final_of (by dsimp only; decide)]
          have hfs : fs ≠ [] := by
            intro e'; rw [hch, e'] at hlt; simp at hlt
          have hall := hg.order pre f fs hch hfs hl hcl' hrem
          simp only [List.nil_append]
          refine ret_res (c := { c with
            act := .forFilterRet, dst := (f.core, f.handle), counter := pre.length % 65536, seq := s.counter })
            hw hcl' hl rfl rfl he (hsrc hall) rfl ?_ ?_ ?_ c.msg.time c.dst
          · dsimp only
            rw [hmod, hch', ← hplen, List.drop_left]
          · dsimp only; rw [hmod]; exact hlt
          · intro g hgm
            cases hgc : g.cloning with
            | false => rfl
            | true =>
              obtain ⟨u, v, huv⟩ := List.append_of_mem hgm
              have := hg.clonesFirst (pre ++ f :: u) g v (by rw [hch, huv]; simp) hgc f (by simp)
              exact absurd this hcl
        · rw [if_neg hlt]
          have hfs : fs = [] := by
            rw [hch, List.length_append, List.length_cons] at hlt
            rw [← List.length_eq_zero_iff]; omega
          subst hfs
          rw [final_of (by dsimp only; decide)]
          simp only [List.nil_append]
          exact last_res (c := { c with
            act := .forFilter, dst := (f.core, f.handle), counter := pre.length % 65536 })
            hw hcl' hl e.fed rfl rfl c.dst

/-- what `FF.filterReturn` sends on -/
def finalO : Option Cmd → List Eff
  | some c => [.deliver c]
  | none => []

/-- **a message which came back from a filter** -/
theorem resume_res {E : Env} {s : FF} (hs : s.In E) {h : Int} {e : Ept} (he : E.epts h = some e)
    (hg : E.GoodChain e.chain) : ∀ (fs pre : List FInfo) (c : Cmd), e.chain = pre ++ fs → c.act = .send →
    (fs = [] → c.dst = byName) → (∀ g ∈ fs, g.cloning = false) →
    E.Res s (s.resume e.fed h e.chain.length fs pre.length c).1 e.fed
      ((s.resume e.fed h e.chain.length fs pre.length c).2.2 ++
        finalO (s.resume e.fed h e.chain.length fs pre.length c).2.1)
      (E.outcome fs c.msg byName) := by
  intro fs
  induction fs with
  | nil =>
    intro pre c _ ha hd _
    unfold FF.resume
    dsimp only
    rw [← hd rfl]
    exact end_res e.fed ha
  | cons f fs ih =>
    intro pre c hch ha _ hncl
    have hmem : f ∈ e.chain := by rw [hch]; simp
    have hw := hg.works f hmem
    unfold FF.resume
    rw [hw.1]
    simp only [Bool.false_eq_true, if_false]
    have hch' : e.chain = (pre ++ [f]) ++ fs := by rw [hch]; simp
    have hplen : (pre ++ [f]).length = pre.length + 1 := by simp
    have hcl' : f.cloning = false := hncl f (List.mem_cons_self ..)
    have hcl : ¬ f.cloning = true := by simp [hcl']
    by_cases hl : f.core = E.fed
    · rcases execute_local hs hw hcl' hl c with ⟨x1, x2⟩ | ⟨m, x1, x2⟩
      · rw [x2]
        dsimp only
        unfold Env.outcome
        rw [if_neg hcl, x1]
        exact drop_res e.fed
      · rw [x2]
        dsimp only
        rw [if_pos rfl]
        have hI := ih (pre ++ [f]) (Cmd.ofMsg m) hch' rfl (fun _ => rfl)
          (fun g hg' => hncl g (List.mem_cons_of_mem _ hg'))
        rw [hplen] at hI
        unfold Env.outcome
        rw [if_neg hcl, x1]
        exact hI
    · rw [execute_remote hs hcl' hl c]
      dsimp only
      have hni : ¬ c.act = .ignore := by rw [ha]; decide
      rw [if_neg (by simp), if_neg (by simp), if_neg hni]
      have hle : pre.length < e.chain.length := by rw [hch]; simp
      have hmod : pre.length % 65536 = pre.length := Nat.mod_eq_of_lt (Nat.lt_of_lt_of_le hle hg.len)
      by_cases hlt : pre.length + 1 < e.chain.length
      · rw [if_pos hlt]
        dsimp only [finalO]
        simp only [List.nil_append]
        refine ret_res (c := { c with
          act := .forFilterRet, dst := (f.core, f.handle), counter := pre.length % 65536, seq := s.counter,
          src := (e.fed, h) })
          hw hcl' hl rfl rfl he rfl rfl ?_ ?_ (fun g hg' => hncl g (List.mem_cons_of_mem _ hg')) c.msg.time byName
        · dsimp only
          rw [hmod, hch', ← hplen, List.drop_left]
        · dsimp only; rw [hmod]; exact hlt
      · rw [if_neg hlt]
        have hfs : fs = [] := by
          rw [hch, List.length_append, List.length_cons] at hlt
          rw [← List.length_eq_zero_iff]; omega
        subst hfs
        dsimp only [finalO]
        simp only [List.nil_append]
        exact last_res (c := { c with act := .forFilter, dst := (f.core, f.handle) })
          hw hcl' hl e.fed rfl rfl byName

end Verif.Filt
