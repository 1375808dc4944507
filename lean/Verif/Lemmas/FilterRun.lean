import Verif.Lemmas.FilterDest
/-!
# Lemmas about filters: the invariant along a run
-/
namespace Verif.Filt

theorem env_eta {y : Sys} {E : Env} (h : y.env = E) : y.ff.In E ∧ y.home = E.home := by
  subst h; exact ⟨⟨rfl, rfl, rfl⟩, rfl⟩

theorem inv_post {E : Env} (hE : E.Good) {y : Sys} {hs rs ts} (h : E.Inv y hs rs ts) (p : Int) (m : Msg)
    (d : Int × Int) : E.Inv (y.post p m d) (hs ++ E.posted p m d) rs ts := by
  unfold Sys.post Env.posted
  rw [h.inn.epts]
  cases he : E.epts p with
  | none => dsimp only; rw [List.append_nil]; exact h
  | some e =>
    dsimp only
    have hg := hE p e he
    unfold FF.process
    rw [h.inn.epts, he]
    dsimp only
    have hr := walk_res (s := y.ff) h.inn he hg.chain e.chain [] 
      { act := .send, src := (e.fed, p), dst := d, msg := m } rfl rfl (fun _ => rfl) (by simp)
    simp only [List.length_nil] at hr
    have hc : Eff.crash ∉ (y.ff.walk e.fed e.chain.length e.chain 0
        { act := .send, src := (e.fed, p), dst := d, msg := m }).2.2 :=
      fun hm => hr.plain.crash (List.mem_append_left _ hm)
    have := Env.Inv.res (y := y) h hr
    by_cases hi : (y.ff.walk e.fed e.chain.length e.chain 0
        { act := .send, src := (e.fed, p), dst := d, msg := m }).2.1.act = .ignore
    · rw [if_pos (.inl hi)]
      rw [show final _ = [] from if_pos hi, List.append_nil] at this
      exact this
    · rw [if_neg (by simp [hi, hc])]
      rw [final_of hi, effects_append] at this
      exact this

theorem inv_arrive {E : Env} (hE : E.Good) {y : Sys} {hs rs ts} (h : E.Inv y hs rs ts) (p : Int) (m : Msg)
    (d : Int × Int) (ho : E.EvOk (.arrive p m d)) :
    E.Inv (y.step (.arrive p m d)) (hs ++ E.toHand (.arrive p m d)) (rs ++ E.toRecv (.arrive p m d)) ts := by
  unfold Sys.step Sys.arrive Env.toHand Env.toRecv
  dsimp only
  rw [h.inn.epts]
  cases he : E.epts p with
  | none => simpa using h
  | some e =>
    dsimp only
    have hg := hE p e he
    -- the message reaches the endpoint
    have hplain : ∀ c : Cmd, E.Inv { { y with ff := y.ff }.effects (y.ff.runClones e p c) with
        received := ({ y with ff := y.ff }.effects (y.ff.runClones e p c)).received ++ [(p, c.msg)] }
        (hs ++ E.cloneHand e c.msg) (rs ++ (p, c.msg) :: E.cloneRecv e p c.msg) ts := by
      intro c
      have hc := (runClones_res h.inn e p c hg.clones).append
        (cloneRes_give E { act := .send, dst := (e.fed, p), msg := c.msg })
      have := h.plain hc.plain hc.key hc.hold hc.hand (hc.recv.trans (List.perm_append_comm))
      rw [effects_append, List.append_nil] at this
      exact this
    unfold FF.destProcess Env.destHand Env.destRecv
    cases hd : e.dest with
    | none => exact hplain { act := .send, dst := d, msg := m }
    | some f =>
      obtain ⟨hw, hcl, hnd⟩ := hg.dest f hd
      dsimp only
      rw [hw.1]
      simp only [Bool.false_eq_true, if_false]
      have hfed : y.ff.fed = E.fed := h.inn.fed
      by_cases hl : f.core = E.fed
      · rw [if_neg (by rw [hfed]; simpa using hl)]
        have hw2 := hw.2
        rw [if_pos hl] at hw2
        obtain ⟨op, hop⟩ := hw2
        rw [show y.ff.ops f.handle = some op from by rw [h.inn.ops]; exact hop]
        dsimp only
        have hap : E.apply f m = op.proc m := by
          unfold Env.apply Env.op; rw [if_pos hl, hop]
        rw [hap]
        have hsome := hnd hl op m hop
        cases hp : op.proc m with
        | none => rw [hp] at hsome; cases hsome
        | some m' =>
          dsimp only
          by_cases hdd : m'.dest = m.dest
          · simp only [if_pos hdd]
            exact hplain { act := .send, dst := d, msg := m' }
          · simp only [if_neg hdd]
            have hd' : d = byName := by
              rcases ho with ho | ho
              · exact ho
              · exact absurd (ho e f op m' he hd hl hop hp) hdd
            subst hd'
            have hc := cloneRes_deliver E (c := { act := .send, dst := byName, msg := m' }) rfl
            have := h.plain hc.plain hc.key hc.hold hc.hand hc.recv
            exact this
      · rw [if_pos (by rw [hfed]; simpa using hl)]
        have hw2 := hw.2
        rw [if_neg hl] at hw2
        obtain ⟨hfi, h1, h2, h3, h4⟩ := hw2
        have hap : E.apply f m = E.apply
          (Cmd.filter (Cmd.mk .forDestRet (e.fed, p) (f.core, f.handle) 0 (y.ff.counter + 1) m)) m := by
          rw [apply_of_dst E (f := f) rfl]
        have hres := h.destOut
          (c := Cmd.mk .forDestRet (e.fed, p) (f.core, f.handle) 0 (y.ff.counter + 1) m) m.time (fid := e.fed)
          ⟨fun _ => ⟨hl, hfi, h1, h2, (fun hx => by rw [h3, hcl] at hx; cases hx), fun _ => h3.trans hcl⟩,
            (nomatch ·), (nomatch ·), (nomatch ·), fun _ => ⟨e, he, rfl⟩, (nomatch ·), .inl rfl⟩ rfl
          (by unfold Env.keyDest; dsimp only; rw [he]; rfl)
        unfold Env.pendHand Env.pendRecv at hres
        dsimp only at hres
        rw [← hap, he] at hres
        dsimp only
        cases hp : E.apply f m with
        | none => rw [hp] at hres; exact hres
        | some m' => rw [hp] at hres; exact hres

/-- nothing happens to the address of an answer which knows its endpoint -/
theorem address_same {y : Sys} {c : Cmd} (h : c.dst.1 ≠ parentId) : y.address c = c := by
  unfold Sys.address; rw [if_neg h]

theorem inv_back {E : Env} (hE : E.Good) {y : Sys} {hs rs ts} (h : E.Inv y hs rs ts) (j : Nat) :
    E.Inv (y.step (.back j)) hs rs ts := by
  unfold Sys.step
  dsimp only
  cases hj : y.wire[j]? with
  | none => exact h
  | some c =>
    dsimp only
    have hm : c ∈ y.wire := List.mem_of_getElem? hj
    have hw := h.ok c hm
    have hlen : j < y.wire.length := by
      rw [List.getElem?_eq_some_iff] at hj
      exact hj.1
    by_cases ha : c.act.isAnswer = true
    · rw [if_pos ha]
      have hex : ∃ e, E.epts c.dst.2 = some e ∧ e.fed = c.dst.1 := by
        cases hact : c.act <;> rw [hact] at ha <;> first | cases ha | skip
        · obtain ⟨e, a, b, -⟩ := hw.ans hact; exact ⟨e, a, b⟩
        · exact hw.null hact
      obtain ⟨e, he, hf⟩ := hex
      have hg := hE c.dst.2 e he
      rw [address_same (by rw [← hf]; exact hg.fed)]
      have hmine : y.isMine c.dst = true := by
        unfold Sys.isMine; rw [h.inn.epts, he]; simpa using hf
      rw [if_pos hmine]
      have hkey : E.key c = some (e.fed, c.seq) := by
        unfold Env.key
        cases hact : c.act <;> rw [hact] at ha <;> first | cases ha | skip
        · simp [he]
        · simp [he]
      have hkd : E.keyDest c = none := by
        unfold Env.keyDest
        cases hact : c.act <;> rw [hact] at ha <;> first | cases ha | rfl
      have hpr : E.pendRecv c = [] := by
        unfold Env.pendRecv
        cases hact : c.act <;> rw [hact] at ha <;> first | cases ha | rfl
      have hon : (e.fed, c.seq) ∈ y.ff.ongoing :=
        h.keys.symm.mem_iff.mp (List.mem_filterMap.mpr ⟨c, hm, hkey⟩)
      unfold FF.filterReturn
      rw [h.inn.epts, he]
      dsimp only
      rw [if_pos hon]
      by_cases hn : c.act = .null
      · rw [if_pos hn]
        have := h.answer hj hkey hkd hpr (s1 := y.ff) (ea := []) (eb := []) (drop_res e.fed)
          (by unfold Env.pendHand; rw [hn]) (by simp)
        simpa using this
      · rw [if_neg hn]
        have hres : c.act = .result := by
          cases hact : c.act <;> rw [hact] at ha hn <;> first | (cases ha; done) | rfl | exact absurd rfl hn
        obtain ⟨e', a, b, b1, b2⟩ := hw.ans hres
        rw [he] at a
        cases a
        have hlen' : (e.chain.take (c.counter + 1)).length = c.counter + 1 := by
          rw [List.length_take]; omega
        have hr := resume_res (s := y.ff) h.inn he hg.chain (e.chain.drop (c.counter + 1))
          (e.chain.take (c.counter + 1)) { c with act := .send } (List.take_append_drop ..).symm rfl
          (by intro hn'; have := congrArg List.length hn'; rw [List.length_drop, List.length_nil] at this; omega) b2
        rw [hlen'] at hr
        generalize y.ff.resume e.fed c.dst.2 e.chain.length (e.chain.drop (c.counter + 1)) (c.counter + 1)
          { c with act := .send } = r at hr
        obtain ⟨s1, oc, e1⟩ := r
        dsimp only at hr ⊢
        have := h.answer hj hkey hkd hpr hr (by
          unfold Env.pendHand; rw [hres]; dsimp only; rw [he])
          (by cases oc <;> simp [finalO, Eff.isHold])
        cases oc with
        | none => exact this
        | some c1 => exact this
    · rw [if_neg ha]
      by_cases hda : c.act.isDestAnswer = true
      · rw [if_pos hda]
        obtain ⟨e, he, hf⟩ := hw.dans hda
        have hg := hE c.dst.2 e he
        rw [address_same (by rw [← hf]; exact hg.fed)]
        have hmine : y.isMine c.dst = true := by
          unfold Sys.isMine; rw [h.inn.epts, he]; simpa using hf
        rw [if_pos hmine]
        have hkd : E.keyDest c = some (e.fed, c.seq) := by
          unfold Env.keyDest
          cases hact : c.act <;> rw [hact] at hda <;> first | cases hda | skip
          · simp [he]
          · simp [he]
        have hkey : E.key c = none := by
          unfold Env.key
          cases hact : c.act <;> rw [hact] at hda <;> first | cases hda | rfl
        have hon : (e.fed, c.seq) ∈ y.ff.ongoingDest :=
          h.keysD.symm.mem_iff.mp (List.mem_filterMap.mpr ⟨c, hm, hkd⟩)
        unfold FF.destReturn
        rw [h.inn.epts, he]
        dsimp only
        rw [if_pos hon]
        by_cases hn : c.act = .nullDest
        · rw [if_pos hn]
          exact h.destIn hj hkd hkey (by unfold Env.pendHand; rw [hn]; simp) (by unfold Env.pendRecv; rw [hn]; simp)
        · rw [if_neg hn]
          have hres : c.act = .destResult := by
            cases hact : c.act <;> rw [hact] at hda hn <;> first | (cases hda; done) | rfl | exact absurd rfl hn
          dsimp only
          have hc := (runClones_res h.inn e c.dst.2 c hg.clones).append (cloneRes_give E { c with act := .send })
          have h1 := h.plain hc.plain hc.key hc.hold hc.hand hc.recv
          rw [effects_append, effects_erase _ _ _ hlen]
          obtain ⟨g1, -, -⟩ := effects_ff y (y.ff.runClones e c.dst.2 c ++ [.give { c with act := .send }])
          have hj' : (y.effects (y.ff.runClones e c.dst.2 c ++ [.give { c with act := .send }])).wire[j]? = some c := by
            rw [(effects_out y _).2.1, List.getElem?_append_left hlen]; exact hj
          have h2 := h1.destIn hj' hkd hkey (hs' := hs) (rs' := rs)
            (by unfold Env.pendHand; rw [hres]; dsimp only; rw [he]; simp)
            (by
              unfold Env.pendRecv; rw [hres]; dsimp only; rw [he]
              refine List.Perm.append_left _ ?_
              exact List.perm_append_comm)
          rw [g1] at h2
          exact h2
      · rw [if_neg hda]; exact h

theorem inv_home {E : Env} {y : Sys} {hs rs ts} (h : E.Inv y hs rs ts) (j : Nat) :
    E.Inv (y.step (.home j)) hs rs ts := by
  unfold Sys.step
  dsimp only
  cases hj : y.wire[j]? with
  | none => exact h
  | some c =>
    dsimp only
    have hm : c ∈ y.wire := List.mem_of_getElem? hj
    split
    · rename_i hr
      have := h.request hj (home_res (h.ok c hm) hr)
      rw [← h.home] at this
      exact this
    · exact h

theorem inv_time {E : Env} {y : Sys} {hs rs ts} (h : E.Inv y hs rs ts) (f x : Int) :
    E.Inv (y.step (.time f x)) hs rs (ts ++ [(f, x)]) := by
  unfold Sys.step
  dsimp only
  have hb := hasBlock_iff h.holds f
  have ho := h.holds
  split
  · rename_i hbl
    refine ⟨h.inn, h.home, h.hand, h.recv, h.ok, h.keys, h.nodup, h.lt, h.keysD, h.nodupD, h.leD, h.crash, ?_,
      h.held⟩
    refine ⟨ho.keys, ho.vals, ho.iff, ?_, ?_⟩
    · intro d hd
      have hd' : d ∈ y.delayed ++ [(f, x)] := hd
      rw [List.mem_append, List.mem_singleton] at hd'
      rcases hd' with hd' | rfl
      · exact ho.delayed d hd'
      · rw [← hb]; exact hbl
    · intro g
      have := ho.order g
      show y.timing.filter _ ++ (y.delayed ++ [(f, x)]).filter _ = _
      rw [List.filter_append, List.filter_append, ← this, List.append_assoc]
      rfl
  · rename_i hbl
    refine ⟨h.inn, h.home, h.hand, h.recv, h.ok, h.keys, h.nodup, h.lt, h.keysD, h.nodupD, h.leD, h.crash, ?_,
      h.held⟩
    refine ⟨ho.keys, ho.vals, ho.iff, ho.delayed, ?_⟩
    intro g
    have := ho.order g
    show (y.timing ++ [(f, x)]).filter _ ++ y.delayed.filter _ = _
    rw [List.filter_append, List.filter_append, ← this]
    by_cases hg : f = g
    · subst hg
      have hnil : y.delayed.filter (fun d => decide (d.1 = f)) = [] := by
        rw [List.filter_eq_nil_iff]
        intro d hd hdf
        have := ho.delayed d hd
        rw [show d.1 = f by simpa using hdf, ← hb] at this
        exact hbl this
      show _ = y.timing.filter _ ++ y.delayed.filter _ ++ _
      rw [hnil]; simp
    · have hnil : [(f, x)].filter (fun d => decide (d.1 = g)) = [] := by simp [hg]
      rw [hnil, List.append_nil, List.append_nil]; rfl

/-- **the invariant at every step** -/
theorem inv_step {E : Env} (hE : E.Good) {y : Sys} {hs rs ts} (h : E.Inv y hs rs ts) (ev : Ev) (ho : E.EvOk ev) :
    E.Inv (y.step ev) (hs ++ E.toHand ev) (rs ++ E.toRecv ev) (ts ++ ev.toTime.toList) := by
  cases ev with
  | post p m d =>
    have := inv_post hE h p m d
    simpa [Env.toHand, Env.toRecv, Ev.toTime, Sys.step] using this
  | home j => simpa [Env.toHand, Env.toRecv, Ev.toTime] using inv_home h j
  | back j => simpa [Env.toHand, Env.toRecv, Ev.toTime] using inv_back hE h j
  | arrive p m d =>
    have := inv_arrive hE h p m d ho
    rw [show Ev.toTime (.arrive p m d) = none from rfl, Option.toList_none, List.append_nil]
    exact this
  | time f x => simpa [Env.toHand, Env.toRecv, Ev.toTime] using inv_time h f x

/-- nothing has happened yet -/
structure Sys.Fresh (y : Sys) : Prop where
  ongoing : y.ff.ongoing = []
  ongoingDest : y.ff.ongoingDest = []
  wire : y.wire = []
  handed : y.handed = []
  received : y.received = []
  blocks : y.blocks = []
  delayed : y.delayed = []
  timing : y.timing = []
  held : y.held = []
  crashed : y.crashed = false

theorem inv_run {y : Sys} (h0 : y.Fresh) (hE : y.env.Good) (es : List Ev) (ho : ∀ e ∈ es, y.env.EvOk e) :
    y.env.Inv (y.run es) (es.flatMap y.env.toHand) (es.flatMap y.env.toRecv) (es.filterMap Ev.toTime) := by
  have hgen : ∀ (es : List Ev) (z : Sys) (hs rs ts), y.env.Inv z hs rs ts → (∀ e ∈ es, y.env.EvOk e) →
      y.env.Inv (z.run es) (hs ++ es.flatMap y.env.toHand) (rs ++ es.flatMap y.env.toRecv)
        (ts ++ es.filterMap Ev.toTime) := by
    intro es
    induction es with
    | nil => intro z hs rs ts h _; simpa [Sys.run] using h
    | cons e es ih =>
      intro z hs rs ts h ho
      have h1 := inv_step hE h e (ho e (List.mem_cons_self ..))
      have h2 := ih (z.step e) _ _ _ h1 (fun e' he' => ho e' (List.mem_cons_of_mem _ he'))
      have e3 : ts ++ (e :: es).filterMap Ev.toTime = ts ++ e.toTime.toList ++ es.filterMap Ev.toTime := by
        rw [List.filterMap_cons]; cases e.toTime <;> simp
      rw [e3, List.flatMap_cons, List.flatMap_cons, ← List.append_assoc, ← List.append_assoc]
      exact h2
  have := hgen es y [] [] [] ?_ ho
  · simpa using this
  · refine ⟨⟨rfl, rfl, rfl⟩, rfl, ?_, ?_, ?_, ?_, ?_, ?_, ?_, ?_, ?_, ?_, ?_, ?_⟩
    · rw [h0.handed, h0.wire]; exact .refl _
    · rw [h0.received, h0.wire]; exact .refl _
    · rw [h0.wire]; simp
    · rw [h0.ongoing, h0.wire]; exact .refl _
    · rw [h0.ongoing]; exact .nil
    · rw [h0.ongoing]; simp
    · rw [h0.ongoingDest, h0.wire]; exact .refl _
    · rw [h0.ongoingDest]; exact .nil
    · rw [h0.ongoingDest]; simp
    · exact h0.crashed
    · refine ⟨?_, ?_, ?_, ?_, ?_⟩
      · show (y.blocks.map _).Nodup; rw [h0.blocks]; exact .nil
      · show ∀ p ∈ y.blocks, _; rw [h0.blocks]; simp
      · intro g; show (g, 1) ∈ y.blocks ↔ _; rw [h0.blocks, h0.ongoing]; simp [busy]
      · show ∀ d ∈ y.delayed, _; rw [h0.delayed]; simp
      · intro g; show y.timing.filter _ ++ y.delayed.filter _ = _; rw [h0.timing, h0.delayed]; rfl
    · intro g; rw [h0.held, h0.ongoingDest]; simp [busy]

end Verif.Filt
