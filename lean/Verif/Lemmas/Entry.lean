import Verif.Lemmas.TableRun
/-! What stays true of the entry of one dependency while other commands are processed. -/
namespace Verif
namespace Deps

/-- some entry of dependency `g` satisfies `P` -/
def Has (g : FedId) (P : DepInfo → Prop) (ds : Deps) : Prop := ∃ d ∈ ds, d.fedID = g ∧ d.dependency = true ∧ P d

theorem fromLB_eq {ds : Deps} {g : FedId} {e : DepInfo} {rest : Deps} (h : fromLB ds g = e :: rest) :
    ds = before ds g ++ e :: rest := by rw [← h, before_append_fromLB]

theorem mem_modify {ds : Deps} (g : FedId) (f : DepInfo → DepInfo) {d : DepInfo} (h : d ∈ ds) :
    d ∈ modify ds g f ∨ (d.fedID = g ∧ f d ∈ modify ds g f) := by
  unfold modify
  split
  · exact Or.inl h
  · rename_i e rest he
    split
    · rename_i hg
      rw [fromLB_eq he] at h
      simp only [List.mem_append, List.mem_cons] at h ⊢
      rcases h with h | h | h
      · exact Or.inl (Or.inl h)
      · subst h; exact Or.inr ⟨hg, Or.inr (Or.inl rfl)⟩
      · exact Or.inl (Or.inr (Or.inr h))
    · exact Or.inl h

theorem Has.modify {ds : Deps} {g : FedId} {P : DepInfo → Prop} (h : Has g P ds) (g' : FedId) (f : DepInfo → DepInfo)
    (hf : g' = g → ∀ d, P d → (f d).fedID = d.fedID ∧ (f d).dependency = d.dependency ∧ P (f d)) :
    Has g P (modify ds g' f) := by
  obtain ⟨d, hm, h1, h2, h3⟩ := h
  rcases mem_modify g' f hm with h | ⟨e, h⟩
  · exact ⟨d, h, h1, h2, h3⟩
  · obtain ⟨a, b, c⟩ := hf (e.symm.trans h1) d h3
    exact ⟨f d, h, a.trans h1, b.trans h2, c⟩

theorem Has.removeDependent {ds : Deps} {g : FedId} {P : DepInfo → Prop} (h : Has g P ds) (g' : FedId)
    (hf : ∀ d, P d → P { d with dependent := false }) : Has g P (Deps.removeDependent ds g') := by
  obtain ⟨d, hm, h1, h2, h3⟩ := h
  unfold Deps.removeDependent
  split
  · exact ⟨d, hm, h1, h2, h3⟩
  · rename_i e rest he
    rw [fromLB_eq he] at hm
    simp only [List.mem_append, List.mem_cons] at hm
    split
    · split
      · rename_i hd
        rcases hm with hm | hm | hm
        · exact ⟨d, by simp [hm], h1, h2, h3⟩
        · subst hm; simp [h2] at hd
        · exact ⟨d, by simp [hm], h1, h2, h3⟩
      · rcases hm with hm | hm | hm
        · exact ⟨d, by simp [hm], h1, h2, h3⟩
        · subst hm; exact ⟨{ d with dependent := false }, by simp, h1, h2, hf _ h3⟩
        · exact ⟨d, by simp [hm], h1, h2, h3⟩
    · refine ⟨d, ?_, h1, h2, h3⟩
      rw [fromLB_eq he]; simpa using hm

theorem Has.removeDependency {ds : Deps} {g : FedId} {P : DepInfo → Prop} (h : Has g P ds) (g' : FedId)
    (hg : g' ≠ g) : Has g P (Deps.removeDependency ds g') := by
  obtain ⟨d, hm, h1, h2, h3⟩ := h
  unfold Deps.removeDependency
  split
  · exact ⟨d, hm, h1, h2, h3⟩
  · rename_i e rest he
    rw [fromLB_eq he] at hm
    simp only [List.mem_append, List.mem_cons] at hm
    split
    · rename_i heg
      have hm : d ∈ before ds g' ∨ d ∈ rest := by
        rcases hm with hm | hm | hm
        · exact Or.inl hm
        · subst hm; exact absurd (heg.symm.trans h1) hg
        · exact Or.inr hm
      split
      · exact ⟨d, by simpa using hm, h1, h2, h3⟩
      · exact ⟨d, by simp only [List.mem_append, List.mem_cons]; rcases hm with h | h <;> simp [h], h1, h2, h3⟩
    · refine ⟨d, ?_, h1, h2, h3⟩
      rw [fromLB_eq he]; simpa using hm

theorem Has.addDependency {ds : Deps} {g : FedId} {P : DepInfo → Prop} (h : Has g P ds) (g' : FedId)
    (hg : g' ≠ g) : Has g P (Deps.addDependency ds g').1 := by
  obtain ⟨d, hm, h1, h2, h3⟩ := h
  unfold Deps.addDependency
  split
  · exact ⟨d, by simp [hm], h1, h2, h3⟩
  · rename_i e rest he
    rw [fromLB_eq he] at hm
    simp only [List.mem_append, List.mem_cons] at hm
    split
    · rename_i heg
      have hm : d ∈ before ds g' ∨ d ∈ rest := by
        rcases hm with hm | hm | hm
        · exact Or.inl hm
        · subst hm; exact absurd (heg.symm.trans h1) hg
        · exact Or.inr hm
      split
      all_goals exact ⟨d, by simp only [List.mem_append, List.mem_cons]; rcases hm with h | h <;> simp [h], h1, h2, h3⟩
    · refine ⟨d, ?_, h1, h2, h3⟩
      simp only [List.mem_append, List.mem_cons]
      rcases hm with h | h | h <;> simp [h]

theorem Has.addDependent {ds : Deps} {g : FedId} {P : DepInfo → Prop} (h : Has g P ds) (g' : FedId)
    (hf : ∀ d, P d → P { d with dependent := true }) : Has g P (Deps.addDependent ds g').1 := by
  obtain ⟨d, hm, h1, h2, h3⟩ := h
  unfold Deps.addDependent
  split
  · exact ⟨d, by simp [hm], h1, h2, h3⟩
  · rename_i e rest he
    rw [fromLB_eq he] at hm
    simp only [List.mem_append, List.mem_cons] at hm
    split
    · rcases hm with hm | hm | hm
      · exact ⟨d, by simp [hm], h1, h2, h3⟩
      · subst hm; exact ⟨{ d with dependent := true }, by simp, h1, h2, hf _ h3⟩
      · exact ⟨d, by simp [hm], h1, h2, h3⟩
    · refine ⟨d, ?_, h1, h2, h3⟩
      simp only [List.mem_append, List.mem_cons]
      rcases hm with h | h | h <;> simp [h]

theorem Has.map {ds : Deps} {g : FedId} {P : DepInfo → Prop} (h : Has g P ds) (f : DepInfo → DepInfo) {Q : DepInfo → Prop}
    (hf : ∀ d, P d → d.dependency = true → (f d).fedID = d.fedID ∧ (f d).dependency = d.dependency ∧ Q (f d)) :
    Has g Q (ds.map f) := by
  obtain ⟨d, hm, h1, h2, h3⟩ := h
  obtain ⟨a, b, c⟩ := hf d h3 h2
  exact ⟨f d, List.mem_map_of_mem hm, a.trans h1, b.trans h2, c⟩

theorem Has.mono {ds : Deps} {g : FedId} {P Q : DepInfo → Prop} (h : Has g P ds) (hpq : ∀ d, P d → Q d) : Has g Q ds := by
  obtain ⟨d, hm, h1, h2, h3⟩ := h
  exact ⟨d, hm, h1, h2, hpq d h3⟩

theorem Has.updateTime {ds : Deps} {g : FedId} {P : DepInfo → Prop} (h : Has g P ds) (cmd : Msg)
    (hf : cmd.source = g → ∀ d, P d → P (d.process cmd).1) : Has g P (Deps.updateTime ds cmd).1 := by
  unfold Deps.updateTime
  split
  · exact h
  · split
    · exact h
    · exact h.modify _ _ (fun e d hd => ⟨process_fedID cmd d, (process_flags cmd d).1, hf e d hd⟩)

/-- the facts about an entry do not depend on the flags managed by other bookkeeping -/
structure Robust (P : DepInfo → Prop) : Prop where
  off : ∀ d, P d → P { d with dependent := false }
  on : ∀ d, P d → P { d with dependent := true }
  iterExec : ∀ d, P d → d.state.rank ≤ TimeState.execReqIter.rank → P { d with
    state := .initialized, grantedIteration := d.sequenceCounter, sequenceCounter := 0
    responseSequenceCounter := 0, restrictionLevel := 0, minFed := invalidFed }
  iterTime : ∀ d, P d → d.state = .timeReqIter → P { d with state := .granted, Te := d.next, minDe := d.next }

theorem Has.tableMsg {ds : Deps} {g : FedId} {P : DepInfo → Prop} (hP : Robust P) (h : Has g P ds) (cmd : Msg)
    (hf : cmd.source = g → ∀ d, P d → P (d.process cmd).1) : Has g P (Deps.tableMsg ds cmd) := by
  unfold Deps.tableMsg
  split
  all_goals (first | exact h | exact (h.removeDependent _ hP.off).updateTime cmd hf | exact h.updateTime cmd hf)

theorem Has.dr {self : FedId} {cmd : Msg} {ds es : Deps} {g : FedId} {P : DepInfo → Prop} (hP : Robust P)
    (h : Has g P ds) (hr : DR self cmd ds es) (hs : g ≠ self)
    (hf : cmd.source = g → ∀ d, P d → P (d.process cmd).1) : Has g P es := by
  induction hr with
  | refl => exact h
  | again _ _ ih => exact ih.tableMsg hP cmd hf
  | bye _ c hc _ ih => exact ih.tableMsg hP c (fun e => absurd (e.symm.trans hc) hs)
  | iterTime _ t ih =>
    refine ih.map _ (fun d hd hdep => ?_)
    split
    · rename_i hc
      simp only [Bool.and_eq_true, beq_iff_eq] at hc
      refine ⟨rfl, rfl, ?_⟩
      have := hP.iterTime d hd hc.1.2
      rw [← hc.2]; exact this
    · exact ⟨rfl, rfl, hd⟩
  | iterExec _ ih =>
    refine ih.map _ (fun d hd hdep => ?_)
    split
    · rename_i hc
      simp only [Bool.and_eq_true, decide_eq_true_eq] at hc
      exact ⟨rfl, rfl, hP.iterExec d hd hc.2⟩
    · exact ⟨rfl, rfl, hd⟩

end Deps

namespace TC
open Deps

/-- the command changes whether `g` is a dependency -/
def rewires (g : FedId) (cmd : Msg) : Bool :=
  cmd.source == g && (cmd.action == .addDependency || cmd.action == .removeDependency ||
    cmd.action == .addInterdependency || cmd.action == .removeInterdependency)

theorem has_setConn {tc : TC} {g : FedId} {P : DepInfo → Prop} (h : Has g P tc.deps) (g' : FedId) (c : Conn) (hg : g' ≠ g) :
    Has g P (tc.setConn g' c).deps := by
  unfold setConn
  split
  · exact h
  · exact h.modify _ _ (fun e => absurd e hg)

theorem has_addDependency {tc : TC} {g : FedId} {P : DepInfo → Prop} (h : Has g P tc.deps) (g' : FedId) (hg : g' ≠ g) :
    Has g P (tc.addDependency g').1.deps := by
  unfold addDependency
  simp only
  split
  · exact (h.addDependency _ hg).modify _ _ (fun e => absurd e hg)
  · exact h.addDependency _ hg

theorem has_processDependencyUpdate {tc : TC} {g : FedId} {P : DepInfo → Prop} (hP : Robust P) (h : Has g P tc.deps)
    (cmd : Msg) (hw : rewires g cmd = false) (hf : cmd.source = g → ∀ d, P d → P (d.process cmd).1) :
    Has g P (tc.processDependencyUpdate cmd).deps := by
  have tail : ∀ r : TC × Bool, Has g P r.1.deps → (r.2 = true → cmd.source ≠ g) →
      Has g P (if r.2 then
        let tc := if cmd.child then r.1.setConn cmd.source .child else r.1
        let tc := if cmd.parent then tc.setConn cmd.source .parent else tc
        if cmd.counter > 0 then
          { tc with deps := tc.deps.modify cmd.source (fun d => { d with timingVersion := toI8 cmd.counter }) }
        else tc
      else r.1 : TC).deps := by
    intro r hr hne
    split
    · rename_i h2
      have hne := hne h2
      have h1 : Has g P (if cmd.child then r.1.setConn cmd.source .child else r.1 : TC).deps := by
        split
        · exact has_setConn hr _ _ hne
        · exact hr
      generalize (if cmd.child then r.1.setConn cmd.source .child else r.1 : TC) = t1 at h1 ⊢
      have h3 : Has g P (if cmd.parent then t1.setConn cmd.source .parent else t1 : TC).deps := by
        split
        · exact has_setConn h1 _ _ hne
        · exact h1
      simp only
      generalize (if cmd.parent then t1.setConn cmd.source .parent else t1 : TC) = t2 at h3 ⊢
      split
      · exact h3.modify _ _ (fun e => absurd e hne)
      · exact h3
    · exact hr
  unfold processDependencyUpdate
  have hne : (cmd.action = .addDependency ∨ cmd.action = .removeDependency ∨
    cmd.action = .addInterdependency ∨ cmd.action = .removeInterdependency) → cmd.source ≠ g := by
    intro ha e
    unfold rewires at hw
    rw [e] at hw
    rcases ha with ha | ha | ha | ha <;> simp [ha] at hw
  apply tail
  · split <;> rename_i ha
    · exact has_addDependency h _ (hne (by simp [ha]))
    · exact h.removeDependency _ (hne (by simp [ha]))
    · exact h.addDependent _ hP.on
    · exact h.removeDependent _ hP.off
    · exact (has_addDependency h _ (hne (by simp [ha]))).addDependent _ hP.on
    · exact (h.removeDependency _ (hne (by simp [ha]))).removeDependent _ hP.off
    · exact h.updateTime _ hf
    · exact h
  · intro h2
    split at h2 <;> rename_i ha
    · exact hne (by simp [ha])
    · cases h2
    · cases h2
    · cases h2
    · exact hne (by simp [ha])
    · cases h2
    · cases h2
    · cases h2

theorem has_tableAfter {tc : TC} {g : FedId} {P : DepInfo → Prop} (hP : Robust P) (h : Has g P tc.deps)
    (cmd : Msg) (hw : rewires g cmd = false) (hf : cmd.source = g → ∀ d, P d → P (d.process cmd).1) :
    Has g P (tc.tableAfter cmd) := by
  unfold tableAfter
  split
  · exact has_processDependencyUpdate hP h cmd hw hf
  · split
    · exact h.tableMsg hP cmd hf
    · exact h

end TC
end Verif
