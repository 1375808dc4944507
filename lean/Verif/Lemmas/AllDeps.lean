import Verif.Lemmas.Causal
/-! Facts that hold of every entry of the dependency table, whatever happens. -/
namespace Verif
namespace Deps

/-- every entry satisfies `P` -/
def Each (P : DepInfo → Prop) (ds : Deps) : Prop := ∀ d ∈ ds, P d

/-- `P` holds of new entries and survives all bookkeeping; `ok` says which commands it survives, `ev` at which held
times it survives an own request -/
structure Kept (own : FedId) (ok : Msg → Prop) (P : DepInfo → Prop) (ev : Time → Prop := fun _ => True) : Prop where
  fresh : ∀ g a b, P { DepInfo.ofId g with dependency := a, dependent := b }
  flags : ∀ d a b, P d → P { d with dependency := a, dependent := b }
  again : ∀ d, P d → P { d with dependency := true, next := -1, lastGrant := 0, state := .initialized }
  iterExec : ∀ d, P d → P { d with
    state := .initialized, grantedIteration := d.sequenceCounter, sequenceCounter := 0
    responseSequenceCounter := 0, restrictionLevel := 0, minFed := invalidFed }
  iterTime : ∀ d, P d → d.state = .timeReqIter → P { d with state := .granted, Te := d.next, minDe := d.next }
  events : ∀ d t, ev t → P d → P { d with Te := max d.next t, minDe := max d.next t }
  selfc : ∀ d, P d → d.fedID = own → P { d with connection := .self }
  conn : ∀ d c, P d → c ≠ Conn.self → P { d with connection := c }
  version : ∀ d v, P d → P { d with timingVersion := v }
  process : ∀ cmd d, ok cmd → d.fedID = cmd.source → P d → P (d.process cmd).1
  bye : ∀ cmd d, cmd.source = own → cmd.action = .disconnect ∨ cmd.action = .localError → d.fedID = cmd.source → P d → P (d.process cmd).1

theorem each_split {P : DepInfo → Prop} {ds : Deps} {g : FedId} {e : DepInfo} {rest : Deps} (h : Each P ds)
    (he : fromLB ds g = e :: rest) : Each P (before ds g) ∧ P e ∧ Each P rest := by
  rw [fromLB_eq he] at h
  exact ⟨fun d hd => h d (by simp [hd]), h e (by simp), fun d hd => h d (by simp [hd])⟩

theorem each_join {P : DepInfo → Prop} {a b : Deps} (h : Each P a) (k : Each P b) : Each P (a ++ b) := by
  intro d hd
  rw [List.mem_append] at hd
  rcases hd with hd | hd
  · exact h d hd
  · exact k d hd

theorem each_cons {P : DepInfo → Prop} {d : DepInfo} {b : Deps} (h : P d) (k : Each P b) : Each P (d :: b) := by
  intro x hx
  rcases List.mem_cons.1 hx with rfl | hx
  · exact h
  · exact k x hx

theorem Each.modify {P : DepInfo → Prop} {ds : Deps} (h : Each P ds) (g : FedId) (f : DepInfo → DepInfo)
    (hf : ∀ d, P d → d.fedID = g → P (f d)) : Each P (Deps.modify ds g f) := by
  unfold Deps.modify
  split
  · exact h
  · rename_i e rest he
    obtain ⟨a, b, c⟩ := each_split h he
    split
    · rename_i hg; exact each_join a (each_cons (hf e b hg) c)
    · exact h

theorem Each.map {P : DepInfo → Prop} {ds : Deps} (h : Each P ds) (f : DepInfo → DepInfo)
    (hf : ∀ d, P d → P (f d)) : Each P (ds.map f) := by
  intro d hd
  rw [List.mem_map] at hd
  obtain ⟨e, he, rfl⟩ := hd
  exact hf e (h e he)

variable {self : FedId} {ok : Msg → Prop} {P : DepInfo → Prop} {ev : Time → Prop}

theorem Each.removeDependent {ds : Deps} (h : Each P ds) (K : Kept self ok P ev) (g : FedId) :
    Each P (Deps.removeDependent ds g) := by
  unfold Deps.removeDependent
  split
  · exact h
  · rename_i e rest he
    obtain ⟨a, b, c⟩ := each_split h he
    split
    · split
      · exact each_join a c
      · exact each_join a (each_cons (K.flags e e.dependency false b) c)
    · exact h

theorem Each.removeDependency {ds : Deps} (h : Each P ds) (K : Kept self ok P ev) (g : FedId) :
    Each P (Deps.removeDependency ds g) := by
  unfold Deps.removeDependency
  split
  · exact h
  · rename_i e rest he
    obtain ⟨a, b, c⟩ := each_split h he
    split
    · split
      · exact each_join a c
      · exact each_join a (each_cons (K.flags e false e.dependent b) c)
    · exact h

theorem Each.addDependency {ds : Deps} (h : Each P ds) (K : Kept self ok P ev) (g : FedId) :
    Each P (Deps.addDependency ds g).1 := by
  unfold Deps.addDependency
  split
  · exact each_join h (each_cons (K.fresh g true _) (fun _ h => nomatch h))
  · rename_i e rest he
    obtain ⟨a, b, c⟩ := each_split h he
    split
    · split
      · exact each_join a (each_cons (K.again e b) c)
      · exact each_join a (each_cons (K.flags e true e.dependent b) c)
    · exact each_join a (each_cons (K.fresh g true _) (each_cons b c))

theorem Each.addDependent {ds : Deps} (h : Each P ds) (K : Kept self ok P ev) (g : FedId) :
    Each P (Deps.addDependent ds g).1 := by
  unfold Deps.addDependent
  split
  · exact each_join h (each_cons (K.fresh g _ true) (fun _ h => nomatch h))
  · rename_i e rest he
    obtain ⟨a, b, c⟩ := each_split h he
    split
    · exact each_join a (each_cons (K.flags e e.dependency true b) c)
    · exact each_join a (each_cons (K.fresh g _ true) (each_cons b c))

theorem Each.updateTime {ds : Deps} (h : Each P ds) (cmd : Msg) (hf : ∀ d, d.fedID = cmd.source → P d → P (d.process cmd).1) :
    Each P (Deps.updateTime ds cmd).1 := by
  unfold Deps.updateTime
  split
  · exact h
  · split
    · exact h
    · exact h.modify _ _ (fun d hd e => hf d e hd)

theorem Each.tableMsg {ds : Deps} (h : Each P ds) (K : Kept self ok P ev) (cmd : Msg)
    (hf : ∀ d, d.fedID = cmd.source → P d → P (d.process cmd).1) : Each P (Deps.tableMsg ds cmd) := by
  unfold Deps.tableMsg
  split
  all_goals (first | exact h | exact (h.removeDependent K _).updateTime cmd hf | exact h.updateTime cmd hf)

theorem Each.dr {cmd : Msg} {ds es : Deps} (h : Each P ds) (K : Kept self ok P ev) (hr : DR self cmd ds es)
    (hk : ok cmd) : Each P es := by
  induction hr with
  | refl => exact h
  | again _ _ ih => exact ih.tableMsg K cmd (fun d => K.process cmd d hk)
  | bye _ c hc ha ih => exact ih.tableMsg K c (fun d => K.bye c d hc ha)
  | iterTime _ t ih =>
    refine ih.map _ (fun d hd => ?_)
    split
    · rename_i hc
      simp only [Bool.and_eq_true, beq_iff_eq] at hc
      have := K.iterTime d hd hc.1.2
      rw [← hc.2]; exact this
    · exact hd
  | iterExec _ ih =>
    refine ih.map _ (fun d hd => ?_)
    split
    · exact K.iterExec d hd
    · exact hd

theorem Each.resetEvents {ds : Deps} (h : Each P ds) (K : Kept self ok P ev) (t : Time) (ht : ev t) : Each P (Deps.resetEvents ds t) := by
  refine h.map _ (fun d hd => ?_)
  split
  · exact K.events d _ ht hd
  · exact hd

end Deps

namespace TC
open Deps
variable {ok : Msg → Prop} {P : DepInfo → Prop} {ev : Time → Prop}

theorem each_setConn {tc : TC} (h : Each P tc.deps) (K : Kept tc.self ok P ev) (g : FedId) (c : Conn) (hc : c ≠ .self) :
    Each P (tc.setConn g c).deps ∧ (tc.setConn g c).self = tc.self := by
  unfold setConn
  split
  · exact ⟨h, rfl⟩
  · exact ⟨h.modify _ _ (fun d hd _ => K.conn d c hd hc), rfl⟩

theorem each_addDependency {tc : TC} (h : Each P tc.deps) (K : Kept tc.self ok P ev) (g : FedId) :
    Each P (tc.addDependency g).1.deps := by
  unfold addDependency
  simp only
  split
  · rename_i hg
    exact (h.addDependency K _).modify _ _ (fun d hd hgd => K.selfc d hd (hgd.trans hg.2))
  · exact h.addDependency K _

theorem each_processDependencyUpdate {tc : TC} (h : Each P tc.deps) (K : Kept tc.self ok P ev) (cmd : Msg) (hk : ok cmd) :
    Each P (tc.processDependencyUpdate cmd).deps := by
  have tail : ∀ r : TC × Bool, Each P r.1.deps → r.1.self = tc.self →
      Each P (if r.2 then
        let tc := if cmd.child then r.1.setConn cmd.source .child else r.1
        let tc := if cmd.parent then tc.setConn cmd.source .parent else tc
        if cmd.counter > 0 then
          { tc with deps := tc.deps.modify cmd.source (fun d => { d with timingVersion := toI8 cmd.counter }) }
        else tc
      else r.1 : TC).deps := by
    intro r hr hs
    split
    · have h1 : Each P (if cmd.child then r.1.setConn cmd.source .child else r.1 : TC).deps ∧
          (if cmd.child then r.1.setConn cmd.source .child else r.1 : TC).self = tc.self := by
        split
        · have := each_setConn hr (by rw [hs]; exact K) cmd.source .child (by decide)
          exact ⟨this.1, this.2.trans hs⟩
        · exact ⟨hr, hs⟩
      generalize (if cmd.child then r.1.setConn cmd.source .child else r.1 : TC) = t1 at h1 ⊢
      have h3 : Each P (if cmd.parent then t1.setConn cmd.source .parent else t1 : TC).deps := by
        split
        · exact (each_setConn h1.1 (by rw [h1.2]; exact K) cmd.source .parent (by decide)).1
        · exact h1.1
      simp only
      generalize (if cmd.parent then t1.setConn cmd.source .parent else t1 : TC) = t2 at h3 ⊢
      split
      · exact h3.modify _ _ (fun d hd _ => K.version d _ hd)
      · exact h3
    · exact hr
  unfold processDependencyUpdate
  apply tail
  · split
    · exact each_addDependency h K _
    · exact h.removeDependency K _
    · exact h.addDependent K _
    · exact h.removeDependent K _
    · exact (each_addDependency h K _).addDependent K _
    · exact (h.removeDependency K _).removeDependent K _
    · exact h.updateTime _ (fun d => K.process cmd d hk)
    · exact h
  · split <;> rfl

theorem each_tableAfter {tc : TC} (h : Each P tc.deps) (K : Kept tc.self ok P ev) (cmd : Msg) (hk : ok cmd) :
    Each P (tc.tableAfter cmd) := by
  unfold tableAfter
  split
  · exact each_processDependencyUpdate h K cmd hk
  · split
    · exact h.tableMsg K cmd (fun d => K.process cmd d hk)
    · exact h

end TC

namespace Fed
open TC Deps

/-- the commands of an event satisfy `ok` -/
def opOk (ok : Msg → Prop) : FedOp → Prop
  | .msg cmd => ok cmd
  | .value cmd => ok cmd
  | .message cmd => ok cmd
  | _ => True

theorem each_step {limit : Int} {f : Fed} {ok : Msg → Prop} {P : DepInfo → Prop} {ev : Time → Prop} (hi : Inv f) (o : FedOp)
    (ho : o.sane f.tc.self) (hk : opOk ok o) (K : Kept f.tc.self ok P ev) (hev : f.state = .executing → ev f.tc.granted)
    (hown : ∀ m : Msg, m.source = f.tc.self → m.action = .timeCheck ∨ m.action = .execRequest → ok m)
    (h : Each P f.tc.deps) : Each P (f.step limit o).1.tc.deps := by
  cases o with
  | msg cmd => exact (each_tableAfter h K cmd hk).dr K (dr_process f cmd ho.1 hi.self) hk
  | timeRequest t it nv nm =>
    simp only [step]
    split
    · rename_i hst
      unfold request
      have hself : (f.tc.timeRequest t (f.limitIter limit it) nv nm).self = f.tc.self :=
        (timeRequest_fields f.tc t (f.limitIter limit it) nv nm).2.2.2.1
      have hd := dr_process { f with tc := f.tc.timeRequest t (f.limitIter limit it) nv nm, mode := false }
        { action := .timeCheck, source := f.tc.self, dest := f.tc.self, actionTime := t } ho
        (by show TC.self _ ≠ _; rw [hself]; exact hi.self)
      have h0 : Each P (f.tc.timeRequest t (f.limitIter limit it) nv nm).deps := by
        rw [deps_timeRequest]; exact h.resetEvents K _ (hev hst.1)
      rw [tableAfter_check _ _ (Or.inr rfl)] at hd
      have K' : Kept (f.tc.timeRequest t (f.limitIter limit it) nv nm).self ok P ev := by rw [hself]; exact K
      exact h0.dr K' hd (hown _ rfl (Or.inl rfl))
    · exact h
  | execRequest it =>
    simp only [step]
    split
    · unfold requestExec
      have hsrc : (setIterationFlags { action := .execRequest, source := f.tc.self, dest := f.tc.self, indicator := true } it).source = f.tc.self := by
        cases it <;> rfl
      have hact : (setIterationFlags { action := .execRequest, source := f.tc.self, dest := f.tc.self, indicator := true } it).actionTime = 0 := by
        cases it <;> rfl
      have hact' : (setIterationFlags { action := .execRequest, source := f.tc.self, dest := f.tc.self, indicator := true } it).action = .execRequest := by
        cases it <;> rfl
      generalize setIterationFlags { action := .execRequest, source := f.tc.self, dest := f.tc.self, indicator := true } it = cmd at hsrc hact hact'
      have hk := hown cmd hsrc (Or.inr hact')
      exact (each_tableAfter h K cmd hk).dr K (dr_process f cmd (by rw [hact]; decide) hi.self) hk
    · exact h
  | value cmd =>
    simp only [step]
    unfold valueArrives
    simp only
    have h1 := h
    rw [← deps_updateValueTime f.tc cmd.actionTime (!f.mode)] at h1
    split
    · rw [deps_processTimeMessage _ _ (by rw [ho.1]; decide)]
      exact h1.tableMsg K cmd (fun d => K.process cmd d hk)
    · exact h1
  | message cmd =>
    simp only [step]
    unfold messageArrives
    simp only
    have h1 := h
    rw [← deps_updateMessageTime f.tc cmd.actionTime (!f.mode)] at h1
    split
    · rw [deps_processTimeMessage _ _ (by rw [ho.1]; decide)]
      exact h1.tableMsg K cmd (fun d => K.process cmd d hk)
    · exact h1
  | setTime p v => simp only [step]; split <;> exact h
  | setFlag p v => exact h
  | setMaxIterations v => exact h

theorem each_run {limit : Int} {f : Fed} {ok : Msg → Prop} {P : DepInfo → Prop} (hi : Inv f) (ops : List FedOp)
    (ho : ∀ o ∈ ops, o.sane f.tc.self ∧ opOk ok o) (K : Kept f.tc.self ok P)
    (hown : ∀ m : Msg, m.source = f.tc.self → m.action = .timeCheck ∨ m.action = .execRequest → ok m)
    (h : Each P f.tc.deps) : Each P (f.run limit ops).tc.deps := by
  induction ops generalizing f with
  | nil => exact h
  | cons o os ih =>
    have ho' := ho o (by simp)
    have hok := step_ok limit f o hi ho'.1
    exact ih hok.inv (fun o h => by rw [hok.self]; exact ho o (by simp [h])) (by rw [hok.self]; exact K)
      (by rw [hok.self]; exact hown) (each_step hi o ho'.1 ho'.2 K (fun _ => trivial) hown h)

end Fed

namespace Deps

/-- only the federate's own entry is marked as its own -/
def OwnMark (self : FedId) (d : DepInfo) : Prop := d.connection = .self → d.fedID = self

theorem process_conn (cmd : Msg) (d : DepInfo) : (d.process cmd).1.connection = d.connection := (process_flags cmd d).2.2

theorem kept_ownMark (self : FedId) : Kept self (fun _ => True) (OwnMark self) where
  fresh _ _ _ := fun h => by cases h
  flags _ _ _ h := h
  again _ h := h
  iterExec _ h := h
  iterTime _ h _ := h
  events _ _ _ h := h
  selfc _ _ h := fun _ => h
  conn _ _ _ hc := fun h => absurd h hc
  version _ _ h := h
  process cmd d _ _ h := by intro e; rw [process_conn] at e; rw [process_fedID]; exact h e
  bye cmd d _ _ _ h := by intro e; rw [process_conn] at e; rw [process_fedID]; exact h e

/-- the next time of an executing entry is not negative -/
def NextNonneg (d : DepInfo) : Prop := executing d = true → 0 ≤ d.next

/-- the command announces no negative time -/
def nonneg (m : Msg) : Prop := m.action = .timeRequest ∨ m.action = .timeGrant → 0 ≤ m.actionTime

theorem kept_nextNonneg (self : FedId) : Kept self nonneg NextNonneg where
  fresh g a b := fun h => by cases h
  flags _ _ _ h := h
  again _ _ := fun h => by cases h
  iterExec _ _ := fun h => by cases h
  iterTime d h hs := fun _ => h (by unfold executing; rw [hs]; decide)
  events _ _ _ h := h
  selfc _ h _ := h
  conn _ _ h _ := h
  version _ _ h := h
  process cmd d hk _ h := by
    unfold nonneg at hk
    unfold NextNonneg DepInfo.process
    split <;> rename_i ha
    all_goals (try (exact h))
    all_goals (try (intro _; show (0 : Int) ≤ maxVal; decide))
    · intro he
      exfalso
      unfold executing at he
      revert he
      cases cmd.iterationRequested <;> cases cmd.required <;> simp [TimeState.rank]
    · split
      · intro _; exact Int.le_refl _
      · intro he; cases he
    · intro _; exact hk (Or.inl ha)
    · intro _; exact hk (Or.inr ha)
  bye cmd d _ ha _ h := by
    unfold NextNonneg DepInfo.process
    rcases ha with ha | ha <;> rw [ha] <;> (intro _; show (0 : Int) ≤ maxVal; decide)

end Deps
end Verif
