import Verif.Model.Deps
/-! Helper lemmas about the sorted dependency vector. -/
namespace Verif
namespace Deps

/-- strictly sorted by federate id -/
def Sorted (ds : Deps) : Prop := ds.Pairwise (fun a b => a.fedID < b.fedID)

/-- the entries with an id above `g` -/
def above (ds : Deps) (g : FedId) : Deps := ds.filter (fun d => decide (g < d.fedID))

/-- replace the entry for `g` -/
def upd (ds : Deps) (g : FedId) (F : Option DepInfo → Option DepInfo) : Deps :=
  before ds g ++ (F (find ds g)).toList ++ above ds g

theorem Sorted.nil : Sorted [] := List.Pairwise.nil

theorem sorted_cons {d : DepInfo} {ds : Deps} :
    Sorted (d :: ds) ↔ (∀ x ∈ ds, d.fedID < x.fedID) ∧ Sorted ds := List.pairwise_cons

theorem before_cons (d : DepInfo) (ds : Deps) (g : FedId) :
    before (d :: ds) g = if d.fedID < g then d :: before ds g else [] := by
  simp [before, List.takeWhile_cons]

theorem fromLB_cons (d : DepInfo) (ds : Deps) (g : FedId) :
    fromLB (d :: ds) g = if d.fedID < g then fromLB ds g else d :: ds := by
  simp [fromLB, List.dropWhile_cons]

theorem before_append_fromLB (ds : Deps) (g : FedId) : before ds g ++ fromLB ds g = ds := by
  simp [before, fromLB, List.takeWhile_append_dropWhile]

theorem above_eq_self {ds : Deps} {g : FedId} (h : ∀ x ∈ ds, g < x.fedID) : above ds g = ds := by
  unfold above; rw [List.filter_eq_self]; simpa using h

theorem fromLB_of_sorted {ds : Deps} (hs : Sorted ds) (g : FedId) :
    fromLB ds g = (find ds g).toList ++ above ds g := by
  induction ds with
  | nil => simp [fromLB, find, above]
  | cons d ds ih =>
    obtain ⟨h1, h2⟩ := sorted_cons.1 hs
    have ih := ih h2
    by_cases hd : d.fedID < g
    · have hf : find (d :: ds) g = find ds g := by
        unfold find; rw [fromLB_cons, if_pos hd]
      have : ¬ g < d.fedID := by omega
      rw [fromLB_cons, if_pos hd, hf, ih]
      simp [above, this]
    · rw [fromLB_cons, if_neg hd]
      by_cases he : d.fedID = g
      · have hf : find (d :: ds) g = some d := by
          unfold find; rw [fromLB_cons, if_neg hd]; simp [he]
        have ha : above (d :: ds) g = ds := by
          have : ¬ g < d.fedID := by omega
          have h3 : above ds g = ds := above_eq_self (fun x hx => he ▸ h1 x hx)
          simp only [above, List.filter_cons, decide_eq_true_eq, this, if_false] at *
          exact h3
        rw [hf, ha]; rfl
      · have hf : find (d :: ds) g = none := by
          unfold find; rw [fromLB_cons, if_neg hd]; simp [he]
        have hlt : g < d.fedID := by omega
        have ha : above (d :: ds) g = d :: ds := by
          apply above_eq_self
          intro x hx
          rcases List.mem_cons.1 hx with rfl | hx
          · exact hlt
          · exact Int.lt_trans hlt (h1 x hx)
        rw [hf, ha]; rfl

theorem split_of_sorted {ds : Deps} (hs : Sorted ds) (g : FedId) :
    ds = before ds g ++ (find ds g).toList ++ above ds g := by
  rw [List.append_assoc, ← fromLB_of_sorted hs g, before_append_fromLB]

theorem find_fedID {ds : Deps} {g : FedId} {d : DepInfo} (h : find ds g = some d) : d.fedID = g := by
  unfold find at h
  split at h
  · cases h
  · split at h
    · injection h with h; subst h; assumption
    · cases h

theorem mem_before {ds : Deps} {g : FedId} {x : DepInfo} (hs : Sorted ds) :
    x ∈ before ds g ↔ x ∈ ds ∧ x.fedID < g := by
  induction ds with
  | nil => simp [before]
  | cons d ds ih =>
    obtain ⟨h1, h2⟩ := sorted_cons.1 hs
    rw [before_cons]
    by_cases hd : d.fedID < g
    · rw [if_pos hd]
      simp only [List.mem_cons, ih h2]
      constructor
      · rintro (rfl | ⟨ha, hb⟩)
        · exact ⟨Or.inl rfl, hd⟩
        · exact ⟨Or.inr ha, hb⟩
      · rintro ⟨rfl | ha, hb⟩
        · exact Or.inl rfl
        · exact Or.inr ⟨ha, hb⟩
    · rw [if_neg hd]
      simp only [List.not_mem_nil, List.mem_cons, false_iff, not_and]
      rintro (rfl | hx)
      · exact hd
      · have := h1 x hx; omega

theorem mem_above {ds : Deps} {g : FedId} {x : DepInfo} :
    x ∈ above ds g ↔ x ∈ ds ∧ g < x.fedID := by
  simp [above]

theorem find_eq_some_iff {ds : Deps} (hs : Sorted ds) {g : FedId} {d : DepInfo} :
    find ds g = some d ↔ d ∈ ds ∧ d.fedID = g := by
  constructor
  · intro h
    refine ⟨?_, find_fedID h⟩
    rw [split_of_sorted hs g, h]; simp
  · rintro ⟨hm, hg⟩
    rw [split_of_sorted hs g] at hm
    simp only [List.mem_append, mem_before hs, mem_above, Option.mem_toList] at hm
    rcases hm with (⟨_, h⟩ | h) | ⟨_, h⟩
    · omega
    · exact h
    · omega

theorem Sorted.before {ds : Deps} (hs : Sorted ds) (g : FedId) : Sorted (before ds g) :=
  List.Pairwise.sublist (List.takeWhile_sublist _) hs

theorem Sorted.above {ds : Deps} (hs : Sorted ds) (g : FedId) : Sorted (above ds g) :=
  List.Pairwise.sublist List.filter_sublist hs

theorem upd_sorted {ds : Deps} (hs : Sorted ds) (g : FedId) (F : Option DepInfo → Option DepInfo)
    (hF : ∀ o d, F o = some d → (∀ e, o = some e → e.fedID = g) → d.fedID = g) : Sorted (upd ds g F) := by
  unfold upd Sorted
  have hfd : ∀ d, F (find ds g) = some d → d.fedID = g := fun d hd =>
    hF _ d hd (fun e he => find_fedID he)
  rw [List.pairwise_append, List.pairwise_append]
  refine ⟨⟨hs.before g, ?_, ?_⟩, hs.above g, ?_⟩
  · cases F (find ds g) <;> simp
  · intro a ha b hb
    rw [mem_before hs] at ha
    have := hfd b (by simpa using hb)
    omega
  · intro a ha b hb
    rw [mem_above] at hb
    rcases List.mem_append.1 ha with ha | ha
    · rw [mem_before hs] at ha; omega
    · have := hfd a (by simpa using ha)
      omega

theorem mem_upd {ds : Deps} (hs : Sorted ds) {g : FedId} {F : Option DepInfo → Option DepInfo} {x : DepInfo} :
    x ∈ upd ds g F ↔ (x ∈ ds ∧ x.fedID ≠ g) ∨ F (find ds g) = some x := by
  unfold upd
  simp only [List.mem_append, mem_before hs, mem_above, Option.mem_toList]
  constructor
  · rintro ((⟨h, h'⟩ | h) | ⟨h, h'⟩)
    · exact Or.inl ⟨h, by omega⟩
    · exact Or.inr h
    · exact Or.inl ⟨h, by omega⟩
  · rintro (⟨h, h'⟩ | h)
    · rcases Int.lt_or_gt_of_ne h' with h'' | h''
      · exact Or.inl (Or.inl ⟨h, h''⟩)
      · exact Or.inr ⟨h, h''⟩
    · exact Or.inl (Or.inr h)

theorem find_upd {ds : Deps} (hs : Sorted ds) (g h : FedId) (F : Option DepInfo → Option DepInfo)
    (hF : ∀ o d, F o = some d → (∀ e, o = some e → e.fedID = g) → d.fedID = g) :
    find (upd ds g F) h = if h = g then F (find ds g) else find ds h := by
  have hs' := upd_sorted hs g F hF
  have hfd : ∀ d, F (find ds g) = some d → d.fedID = g := fun d hd =>
    hF _ d hd (fun e he => find_fedID he)
  apply Option.ext
  intro d
  rw [find_eq_some_iff hs', mem_upd hs]
  by_cases e : h = g
  · subst e
    rw [if_pos rfl]
    constructor
    · rintro ⟨⟨_, h1⟩ | h1, h2⟩
      · exact absurd h2 h1
      · exact h1
    · intro h1; exact ⟨Or.inr h1, hfd d h1⟩
  · rw [if_neg e, find_eq_some_iff hs]
    constructor
    · rintro ⟨⟨h0, h1⟩ | h1, h2⟩
      · exact ⟨h0, h2⟩
      · exact absurd (h2.symm.trans (hfd d h1)) e
    · rintro ⟨h1, h2⟩; exact ⟨Or.inl ⟨h1, fun h3 => e (h2.symm.trans h3)⟩, h2⟩

/-! Each table operation is an `upd`. -/

theorem fromLB_nil_find {ds : Deps} {g : FedId} (h : fromLB ds g = []) : find ds g = none := by
  unfold find; rw [h]

theorem fromLB_cases {ds : Deps} (hs : Sorted ds) (g : FedId) :
    (fromLB ds g = [] ∧ find ds g = none ∧ above ds g = [] ∧ before ds g = ds) ∨
    (∃ d rest, fromLB ds g = d :: rest ∧ d.fedID = g ∧ find ds g = some d ∧ above ds g = rest) ∨
    (∃ d rest, fromLB ds g = d :: rest ∧ d.fedID ≠ g ∧ find ds g = none ∧ above ds g = d :: rest) := by
  have h := fromLB_of_sorted hs g
  cases hf : find ds g with
  | none =>
    rw [hf] at h
    simp only [Option.toList_none, List.nil_append] at h
    cases ha : above ds g with
    | nil =>
      left
      rw [ha] at h
      have := before_append_fromLB ds g
      rw [h, List.append_nil] at this
      exact ⟨h, rfl, rfl, this⟩
    | cons d rest =>
      right; right
      refine ⟨d, rest, by rw [h, ha], ?_, rfl, rfl⟩
      have : d ∈ above ds g := by rw [ha]; simp
      rw [mem_above] at this
      omega
  | some d =>
    rw [hf] at h
    right; left
    exact ⟨d, above ds g, by simpa using h, find_fedID hf, rfl, rfl⟩

theorem modify_eq_upd {ds : Deps} (hs : Sorted ds) (g : FedId) (f : DepInfo → DepInfo) :
    modify ds g f = upd ds g (Option.map f) := by
  have hsp := split_of_sorted hs g
  unfold modify upd
  rcases fromLB_cases hs g with ⟨h1, h2, h3, h4⟩ | ⟨d, r, h1, h2, h3, h4⟩ | ⟨d, r, h1, h2, h3, h4⟩
  · rw [h1, h2, h3]; simp [h4]
  · rw [h1, h3, h4]; simp [h2]
  · rw [h1, h3, h4]; simp only [h2, if_false]
    rw [h3, h4] at hsp; simpa using hsp

theorem addDependency_eq_upd {ds : Deps} (hs : Sorted ds) (g : FedId) :
    (addDependency ds g).1 = upd ds g (fun o => some (match o with
      | none => { DepInfo.ofId g with dependency := true }
      | some d => if d.next > cTerm then { d with dependency := true, next := -1, lastGrant := 0, state := .initialized }
        else { d with dependency := true })) := by
  unfold addDependency upd
  rcases fromLB_cases hs g with ⟨h1, h2, h3, h4⟩ | ⟨d, r, h1, h2, h3, h4⟩ | ⟨d, r, h1, h2, h3, h4⟩
  · rw [h1, h2, h3]; simp [h4]
  · rw [h1, h3, h4]; simp only [h2, if_true]; split <;> simp
  · rw [h1, h3, h4]; simp [h2]

theorem addDependent_eq_upd {ds : Deps} (hs : Sorted ds) (g : FedId) :
    (addDependent ds g).1 = upd ds g (fun o => some (match o with
      | none => { DepInfo.ofId g with dependent := true }
      | some d => { d with dependent := true })) := by
  unfold addDependent upd
  rcases fromLB_cases hs g with ⟨h1, h2, h3, h4⟩ | ⟨d, r, h1, h2, h3, h4⟩ | ⟨d, r, h1, h2, h3, h4⟩
  · rw [h1, h2, h3]; simp [h4]
  · rw [h1, h3, h4]; simp [h2]
  · rw [h1, h3, h4]; simp [h2]

theorem removeDependency_eq_upd {ds : Deps} (hs : Sorted ds) (g : FedId) :
    removeDependency ds g = upd ds g (fun o => o.bind fun d =>
      if !d.dependent then none else some { d with dependency := false }) := by
  have hsp := split_of_sorted hs g
  unfold removeDependency upd
  rcases fromLB_cases hs g with ⟨h1, h2, h3, h4⟩ | ⟨d, r, h1, h2, h3, h4⟩ | ⟨d, r, h1, h2, h3, h4⟩
  · rw [h1, h2, h3]; simp [h4]
  · rw [h1, h3, h4]; simp only [h2, if_true]; cases hd : d.dependent <;> simp [Option.bind, hd, h2]
  · rw [h1, h3, h4]; simp only [h2, if_false]
    rw [h3, h4] at hsp; simpa using hsp

theorem removeDependent_eq_upd {ds : Deps} (hs : Sorted ds) (g : FedId) :
    removeDependent ds g = upd ds g (fun o => o.bind fun d =>
      if !d.dependency then none else some { d with dependent := false }) := by
  have hsp := split_of_sorted hs g
  unfold removeDependent upd
  rcases fromLB_cases hs g with ⟨h1, h2, h3, h4⟩ | ⟨d, r, h1, h2, h3, h4⟩ | ⟨d, r, h1, h2, h3, h4⟩
  · rw [h1, h2, h3]; simp [h4]
  · rw [h1, h3, h4]; simp only [h2, if_true]; cases hd : d.dependency <;> simp [Option.bind, hd, h2]
  · rw [h1, h3, h4]; simp only [h2, if_false]
    rw [h3, h4] at hsp; simpa using hsp

theorem removeInterdependence_eq_upd {ds : Deps} (hs : Sorted ds) (g : FedId) :
    removeInterdependence ds g = upd ds g (fun _ => none) := by
  have hsp := split_of_sorted hs g
  unfold removeInterdependence upd
  rcases fromLB_cases hs g with ⟨h1, h2, h3, h4⟩ | ⟨d, r, h1, h2, h3, h4⟩ | ⟨d, r, h1, h2, h3, h4⟩
  · rw [h1, h3]; simp [h4]
  · rw [h1, h4]; simp [h2]
  · rw [h1, h4]; simp only [h2, if_false]
    rw [h3, h4] at hsp; simpa using hsp

theorem process_fedID (cmd : Msg) (d : DepInfo) : (d.process cmd).1.fedID = d.fedID := by
  unfold DepInfo.process; split <;> (try split) <;> rfl

theorem process_flags (cmd : Msg) (d : DepInfo) :
    (d.process cmd).1.dependency = d.dependency ∧ (d.process cmd).1.dependent = d.dependent ∧
    (d.process cmd).1.connection = d.connection := by
  unfold DepInfo.process; split <;> (try split) <;> simp

theorem updateTime_eq_upd {ds : Deps} (hs : Sorted ds) (cmd : Msg) :
    (updateTime ds cmd).1 = upd ds cmd.source (Option.map fun d =>
      if d.dependency then (d.process cmd).1 else d) := by
  have hsp := split_of_sorted hs cmd.source
  unfold updateTime
  cases hf : find ds cmd.source with
  | none => simp only [upd, hf]; rw [hf] at hsp; simpa using hsp
  | some d =>
    simp only
    cases hd : d.dependency with
    | false =>
      simp only [Bool.not_false, if_true, upd, hf, Option.map_some, hd, Bool.false_eq_true, if_false]
      rw [hf] at hsp; exact hsp
    | true =>
      simp only [Bool.not_true, Bool.false_eq_true, if_false]
      rw [modify_eq_upd hs]; simp [upd, hf, hd]

end Deps
end Verif
