import Verif.Lemmas.FilterRun
/-!
# Lemmas about filters: everything under way comes to an end
-/
namespace Verif.Filt

/-- a bound on the deliveries a command still leads to -/
def Env.cost (E : Env) (c : Cmd) : Nat :=
  match c.act with
  | .forFilter => 1
  | .forFilterRet => match E.epts c.src.2 with | some e => 2 * (e.chain.length - c.counter) | none => 1
  | .result => match E.epts c.dst.2 with | some e => 2 * (e.chain.length - c.counter) - 1 | none => 1
  | .null => 1
  | .forDestRet => match E.epts c.src.2 with | some e => e.clones.length + 2 | none => 1
  | .destResult => match E.epts c.dst.2 with | some e => e.clones.length + 1 | none => 1
  | .nullDest => 1
  | _ => 0

def Env.costs (E : Env) (l : List Cmd) : Nat := (l.map E.cost).sum

theorem costs_append (E : Env) (a b : List Cmd) : E.costs (a ++ b) = E.costs a + E.costs b := by
  unfold Env.costs; rw [List.map_append, List.sum_append]

theorem costs_perm {E : Env} {a b : List Cmd} (h : a.Perm b) : E.costs a = E.costs b := by
  unfold Env.costs
  exact (h.map E.cost).sum_nat

theorem costs_erase {E : Env} {l : List Cmd} {j : Nat} {c : Cmd} (h : l[j]? = some c) :
    E.costs l = E.cost c + E.costs (l.eraseIdx j) := by
  rw [costs_perm (mem_perm_eraseIdx h)]
  rfl

theorem home_cost {E : Env} {c : Cmd} (hw : E.WireOk c) (hr : c.act.isRequest = true) :
    E.costs ((atHome c.dst.1 c.dst.2 (E.home c.dst.1 c.dst.2) c).filter (fun c => !decide (c.act = .send))) <
      E.cost c := by
  obtain ⟨hne, hf, h1, h2, h3, h4⟩ := hw.req hr
  rw [h1]
  unfold atHome
  dsimp only
  rw [h2]
  simp only [Bool.false_eq_true, if_false]
  cases hact : c.act with
  | forFilter =>
    have hc1 : E.cost c = 1 := by unfold Env.cost; rw [hact]
    rw [hc1]
    cases hc : hf.cloning with
    | true =>
      obtain ⟨op, ho⟩ := h3 hc
      rw [ho]
      simp only [if_true]
      have : ((op.vec c.msg).map Cmd.ofMsg).filter (fun c => !decide (c.act = .send)) = [] := by
        rw [List.filter_eq_nil_iff]
        intro x hx
        obtain ⟨m, -, rfl⟩ := List.mem_map.mp hx
        simp [Cmd.ofMsg]
      rw [this]
      exact Nat.zero_lt_one
    | false =>
      cases ho : hf.op with
      | none => simp [Env.costs]
      | some op =>
        cases hp : op.proc c.msg <;> simp [hp, Cmd.ofAct, Cmd.ofMsg, Env.costs]
  | forFilterRet =>
    have hc := h4 (by rw [hact]; decide)
    obtain ⟨e, e1, e2, e3, e4⟩ := hw.ret hact
    have hc1 : E.cost c = 2 * (e.chain.length - c.counter) := by unfold Env.cost; rw [hact]; dsimp only; rw [e1]
    rw [hc1, hc]
    cases ho : hf.op with
    | none =>
      simp [Env.costs, Env.cost, e1]
      omega
    | some op =>
      cases hp : op.proc c.msg with
      | none =>
        simp [hp, Cmd.ofAct, Env.costs, Env.cost]
        omega
      | some m =>
        simp [hp, Cmd.ofMsg, Env.costs, Env.cost, e1]
        omega
  | forDestRet =>
    have hc := h4 (by rw [hact]; decide)
    obtain ⟨e, e1, e2⟩ := hw.dret hact
    have hc1 : E.cost c = e.clones.length + 2 := by unfold Env.cost; rw [hact]; dsimp only; rw [e1]
    rw [hc1, hc]
    cases ho : hf.op with
    | none => simp [Env.costs, Env.cost, e1]
    | some op =>
      cases hp : op.proc c.msg with
      | none => simp [hp, Cmd.ofAct, Env.costs, Env.cost]
      | some m =>
        dsimp only
        by_cases hd : m.dest = c.msg.dest
        · simp [hp, hd, Cmd.ofMsg, Env.costs, Env.cost, e1]
        · simp [hp, hd, Cmd.ofMsg, Cmd.ofAct, Env.costs, Env.cost]
  | send => rw [hact] at hr; cases hr
  | result => rw [hact] at hr; cases hr
  | destResult => rw [hact] at hr; cases hr
  | null => rw [hact] at hr; cases hr
  | nullDest => rw [hact] at hr; cases hr
  | ignore => rw [hact] at hr; cases hr

theorem resume_cost {E : Env} {s : FF} (hs : s.In E) {h : Int} {e : Ept} (he : E.epts h = some e)
    (hg : E.GoodChain e.chain) : ∀ (fs pre : List FInfo) (c : Cmd), e.chain = pre ++ fs → c.act = .send →
    (∀ g ∈ fs, g.cloning = false) →
    E.costs (((s.resume e.fed h e.chain.length fs pre.length c).2.2 ++
        finalO (s.resume e.fed h e.chain.length fs pre.length c).2.1).filterMap Eff.toWire) ≤
      2 * (e.chain.length - pre.length) := by
  intro fs
  induction fs with
  | nil =>
    intro pre c _ ha _
    unfold FF.resume
    simp [finalO, Eff.toWire, ha, Env.costs]
  | cons f fs ih =>
    intro pre c hch ha hncl
    have hw := hg.works f (by rw [hch]; simp)
    have hle : pre.length < e.chain.length := by rw [hch]; simp
    have hmod : pre.length % 65536 = pre.length := Nat.mod_eq_of_lt (Nat.lt_of_lt_of_le hle hg.len)
    unfold FF.resume
    rw [hw.1]
    simp only [Bool.false_eq_true, if_false]
    have hcl' : f.cloning = false := hncl f (List.mem_cons_self ..)
    by_cases hl : f.core = E.fed
    · rcases execute_local hs hw hcl' hl c with ⟨x1, x2⟩ | ⟨m, x1, x2⟩
      · rw [x2]
        simp [Cmd.ofAct, finalO, Env.costs]
      · rw [x2]
        dsimp only
        rw [if_pos rfl]
        have hI := ih (pre ++ [f]) (Cmd.ofMsg m) (by rw [hch]; simp) rfl
          (fun g hg' => hncl g (List.mem_cons_of_mem _ hg'))
        rw [show (pre ++ [f]).length = pre.length + 1 by simp] at hI
        simp only [List.nil_append]
        exact Nat.le_trans hI (by omega)
    · rw [execute_remote hs hcl' hl c]
      dsimp only
      have hni : ¬ c.act = .ignore := by rw [ha]; decide
      rw [if_neg (by simp), if_neg (by simp), if_neg hni]
      by_cases hlt : pre.length + 1 < e.chain.length
      · rw [if_pos hlt]
        dsimp only [finalO]
        obtain ⟨m1, -, -, -, -⟩ := mark_effs { s with counter := s.counter + 1 } e.fed s.counter c.msg.time
        simp only [List.nil_append, List.filterMap_append, m1]
        simp [Eff.toWire, Env.costs, Env.cost, he, hmod]
      · rw [if_neg hlt]
        simp [finalO, Eff.toWire, Env.costs, Env.cost]
        omega

theorem runClones_cost {E : Env} {s : FF} (e : Ept) (h : Int) (c : Cmd) :
    E.costs ((s.runClones e h c).filterMap Eff.toWire) ≤ e.clones.length := by
  unfold FF.runClones
  generalize e.clones = l
  induction l with
  | nil => simp [Env.costs]
  | cons f l ih =>
    rw [List.flatMap_cons, List.filterMap_append, costs_append, List.length_cons]
    have : E.costs ((if f.off then [] else if f.core = s.fed then
        match s.ops f.handle with
        | none => []
        | some op => (op.vec c.msg).map (fun m =>
            if m.dest = e.key then Eff.give { Cmd.ofMsg m with dst := (e.fed, h) }
            else .deliver (Cmd.ofMsg m))
      else [Eff.wire { c with act := .forFilter, dst := (f.core, f.handle) }]).filterMap Eff.toWire) ≤ 1 := by
      split
      · simp [Env.costs]
      · split
        · split
          · simp [Env.costs]
          · rename_i op _
            have : ((op.vec c.msg).map (fun m =>
              if m.dest = e.key then Eff.give { Cmd.ofMsg m with dst := (e.fed, h) }
              else .deliver (Cmd.ofMsg m))).filterMap Eff.toWire = [] := by
              rw [List.filterMap_eq_nil_iff]
              intro x hx
              obtain ⟨m, -, rfl⟩ := List.mem_map.mp hx
              split <;> rfl
            rw [this]; simp [Env.costs]
        · simp [Eff.toWire, Env.costs, Env.cost]
    exact Nat.le_trans (Nat.add_le_add this ih) (by omega)

/-- the delivery of the `j`-th command under way -/
def Sys.delivery (y : Sys) (j : Nat) : Ev :=
  match y.wire[j]? with
  | some c => if c.act.isRequest then .home j else .back j
  | none => .back j

/-- **every delivery brings what is under way closer to its end** -/
theorem delivery_cost {E : Env} (hE : E.Good) {y : Sys} {hs rs ts} (h : E.Inv y hs rs ts) {j : Nat}
    (hj : j < y.wire.length) : E.costs (y.step (y.delivery j)).wire < E.costs y.wire := by
  have hc : y.wire[j]? = some y.wire[j] := List.getElem?_eq_getElem hj
  generalize y.wire[j] = c at hc
  have hm : c ∈ y.wire := List.mem_of_getElem? hc
  have hw := h.ok c hm
  unfold Sys.delivery
  rw [hc]
  dsimp only
  rw [costs_erase hc]
  by_cases hr : c.act.isRequest = true
  · rw [if_pos hr]
    unfold Sys.step
    dsimp only
    rw [hc]
    dsimp only
    rw [if_pos hr, (effects_out _ _).2.1, costs_append]
    rw [(ofCmds E _).1, h.home]
    have := home_cost hw hr
    show E.costs (y.wire.eraseIdx j) + _ < _
    omega
  · rw [if_neg hr]
    unfold Sys.step
    dsimp only
    rw [hc]
    dsimp only
    have hlen : j < y.wire.length := hj
    by_cases ha : c.act.isAnswer = true
    · rw [if_pos ha]
      have hex : ∃ e, E.epts c.dst.2 = some e ∧ e.fed = c.dst.1 := by
        cases hact : c.act <;> rw [hact] at ha <;> first | cases ha | skip
        · obtain ⟨e, a, b, -⟩ := hw.ans hact; exact ⟨e, a, b⟩
        · exact hw.null hact
      obtain ⟨e, he, hf⟩ := hex
      have hg := hE c.dst.2 e he
      rw [address_same (by rw [← hf]; exact hg.fed)]
      have hmine : y.isMine c.dst = true := by
        unfold Sys.isMine; rw [h.inn.epts, he]; simpa using hf
      rw [if_pos hmine, (effects_out _ _).2.1, costs_append]
      have hkey : E.key c = some (e.fed, c.seq) := by
        unfold Env.key
        cases hact : c.act <;> rw [hact] at ha <;> first | cases ha | skip
        · simp [he]
        · simp [he]
      have hon : (e.fed, c.seq) ∈ y.ff.ongoing :=
        h.keys.symm.mem_iff.mp (List.mem_filterMap.mpr ⟨c, hm, hkey⟩)
      have : E.costs ((y.ff.filterReturn c).2.filterMap Eff.toWire) < E.cost c := by
        unfold FF.filterReturn
        rw [h.inn.epts, he]
        dsimp only
        rw [if_pos hon]
        by_cases hn : c.act = .null
        · rw [if_pos hn, (unmark_effs ..).1]
          simp [Env.costs, Env.cost, hn]
        · rw [if_neg hn]
          have hres : c.act = .result := by
            cases hact : c.act <;> rw [hact] at ha hn <;> first | (cases ha; done) | rfl | exact absurd rfl hn
          obtain ⟨e', a, b, b1, b2⟩ := hw.ans hres
          rw [he] at a
          cases a
          have hlen' : (e.chain.take (c.counter + 1)).length = c.counter + 1 := by
            rw [List.length_take]; omega
          have hr := resume_cost (s := y.ff) h.inn he hg.chain (e.chain.drop (c.counter + 1))
            (e.chain.take (c.counter + 1)) { c with act := .send } (List.take_append_drop ..).symm rfl b2
          rw [hlen'] at hr
          generalize y.ff.resume e.fed c.dst.2 e.chain.length (e.chain.drop (c.counter + 1)) (c.counter + 1)
            { c with act := .send } = r at hr
          obtain ⟨s1, oc, e1⟩ := r
          dsimp only at hr ⊢
          rw [List.filterMap_append] at hr ⊢
          rw [List.filterMap_append, (unmark_effs ..).1, List.append_nil]
          have hcost : E.cost c = 2 * (e.chain.length - c.counter) - 1 := by
            unfold Env.cost; rw [hres]; dsimp only; rw [he]
          rw [hcost]
          cases oc with
          | none => dsimp only [finalO] at hr; dsimp only; omega
          | some c1 => dsimp only [finalO] at hr; dsimp only; omega
      show E.costs (y.wire.eraseIdx j) + _ < _
      omega
    · rw [if_neg ha]
      have hda : c.act.isDestAnswer = true := by
        rcases hw.known with h | h | h
        · exact absurd h hr
        · exact absurd h ha
        · exact h
      rw [if_pos hda]
      obtain ⟨e, he, hf⟩ := hw.dans hda
      have hg := hE c.dst.2 e he
      rw [address_same (by rw [← hf]; exact hg.fed)]
      have hmine : y.isMine c.dst = true := by
        unfold Sys.isMine; rw [h.inn.epts, he]; simpa using hf
      rw [if_pos hmine, (effects_out _ _).2.1, costs_append]
      have hkd : E.keyDest c = some (e.fed, c.seq) := by
        unfold Env.keyDest
        cases hact : c.act <;> rw [hact] at hda <;> first | cases hda | skip
        · simp [he]
        · simp [he]
      have hon : (e.fed, c.seq) ∈ y.ff.ongoingDest :=
        h.keysD.symm.mem_iff.mp (List.mem_filterMap.mpr ⟨c, hm, hkd⟩)
      have hun : ∀ s : FF, (s.unmarkDest e.fed c.seq).2.filterMap Eff.toWire = [] := by
        intro s; unfold FF.unmarkDest; dsimp only; split <;> rfl
      have : E.costs ((y.ff.destReturn c).2.filterMap Eff.toWire) < E.cost c := by
        unfold FF.destReturn
        rw [h.inn.epts, he]
        dsimp only
        rw [if_pos hon]
        by_cases hn : c.act = .nullDest
        · rw [if_pos hn, hun]
          simp [Env.costs, Env.cost, hn]
        · rw [if_neg hn]
          have hres : c.act = .destResult := by
            cases hact : c.act <;> rw [hact] at hda hn <;> first | (cases hda; done) | rfl | exact absurd rfl hn
          dsimp only
          rw [List.filterMap_append, List.filterMap_append, hun, List.append_nil]
          have h1 := runClones_cost (E := E) (s := y.ff) e c.dst.2 c
          have h2 : ([Eff.give { c with act := .send }].filterMap Eff.toWire) = [] := rfl
          rw [h2, List.append_nil]
          have hcost : E.cost c = e.clones.length + 1 := by
            unfold Env.cost; rw [hres]; dsimp only; rw [he]
          omega
      show E.costs (y.wire.eraseIdx j) + _ < _
      omega

end Verif.Filt
