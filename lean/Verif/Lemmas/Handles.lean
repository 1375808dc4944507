import Verif.Model.Handles
/-! Lemmas about the interface table. -/
namespace Verif
namespace HM

/-- every entry is kept -/
def Grows {α β : Type} [BEq α] (m m' : List (α × β)) : Prop := ∀ x y, m.lookup x = some y → m'.lookup x = some y

theorem Grows.refl {α β : Type} [BEq α] (m : List (α × β)) : Grows m m := fun _ _ h => h
theorem Grows.trans {α β : Type} [BEq α] {a b c : List (α × β)} (h : Grows a b) (k : Grows b c) : Grows a c :=
  fun x y e => k x y (h x y e)

theorem lookup_cons_ne {α β : Type} [BEq α] [LawfulBEq α] {m : List (α × β)} {k x : α} {v : β} (h : x ≠ k) :
    ((k, v) :: m).lookup x = m.lookup x := by
  simp [List.lookup, beq_eq_false_iff_ne.mpr h]

theorem lookup_cons_self {α β : Type} [BEq α] [LawfulBEq α] {m : List (α × β)} {k : α} {v : β} :
    ((k, v) :: m).lookup k = some v := by
  simp [List.lookup]

theorem grows_cons {α β : Type} [BEq α] [LawfulBEq α] {m : List (α × β)} {k : α} {v : β} (h : m.lookup k = none) :
    Grows m ((k, v) :: m) := by
  intro x y e
  rw [lookup_cons_ne]
  · exact e
  · rintro rfl; rw [h] at e; cases e

theorem tryEmplace_grows {α β : Type} [BEq α] [LawfulBEq α] (m : List (α × β)) (k : α) (v : β) : Grows m (tryEmplace m k v).1 := by
  unfold tryEmplace
  split
  · exact .refl _
  · rename_i h
    exact grows_cons (Option.not_isSome_iff_eq_none.mp h)

theorem tryEmplace_ok {α β : Type} [BEq α] [LawfulBEq α] {m : List (α × β)} {k : α} {v : β} (h : (tryEmplace m k v).2 = true) :
    m.lookup k = none ∧ (tryEmplace m k v).1 = (k, v) :: m := by
  unfold tryEmplace at h ⊢
  split at h
  · cases h
  · rename_i hn
    rw [if_neg hn]
    exact ⟨Option.not_isSome_iff_eq_none.mp hn, rfl⟩

theorem tryEmplace_new {α β : Type} [BEq α] [LawfulBEq α] {m : List (α × β)} {k : α} {v : β} (h : m.lookup k = none) :
    tryEmplace m k v = ((k, v) :: m, true) := by
  unfold tryEmplace; rw [h]; rfl

theorem lookup_eraseKey_self {α β : Type} [BEq α] [LawfulBEq α] (m : List (α × β)) (k : α) : (eraseKey m k).lookup k = none := by
  unfold eraseKey
  induction m with
  | nil => rfl
  | cons p m ih =>
    rw [List.filter_cons]
    split
    · rename_i h
      obtain ⟨a, b⟩ := p
      rw [lookup_cons_ne]
      · exact ih
      · rintro rfl; simp at h
    · exact ih

theorem lookup_eraseKey_ne {α β : Type} [BEq α] [LawfulBEq α] (m : List (α × β)) {k x : α} (h : x ≠ k) :
    (eraseKey m k).lookup x = m.lookup x := by
  unfold eraseKey
  induction m with
  | nil => rfl
  | cons p m ih =>
    obtain ⟨a, b⟩ := p
    rw [List.filter_cons]
    by_cases e : x = a
    · subst e
      have : (!(x == k)) = true := by simp [h]
      rw [if_pos this, lookup_cons_self, lookup_cons_self]
    · rw [lookup_cons_ne e]
      split
      · rw [lookup_cons_ne e]; exact ih
      · exact ih

theorem addAll_grows (m : List (IName × Nat)) (i : Nat) (as : List IName) : Grows m (addAll m i as).1 := by
  induction as generalizing m with
  | nil => exact .refl _
  | cons a as ih =>
    simp only [addAll]
    split
    · exact (tryEmplace_grows m a i).trans (ih _)
    · exact tryEmplace_grows m a i

theorem addAll_ok {m : List (IName × Nat)} {i : Nat} {as : List IName} (h : (addAll m i as).2 = true) :
    ∀ a ∈ as, (addAll m i as).1.lookup a = some i := by
  induction as generalizing m with
  | nil => simp
  | cons b as ih =>
    simp only [addAll] at h ⊢
    split at h
    · rename_i hb
      rw [if_pos hb]
      intro a ha
      rcases List.mem_cons.mp ha with rfl | ha
      · apply addAll_grows
        rw [(tryEmplace_ok hb).2]
        exact lookup_cons_self
      · exact ih h a ha
    · cases h

theorem addFields_grows (m : List (IName × Nat)) (key : IName) (i : Nat) (al : List (IName × List IName)) :
    Grows m (addFields m key i al).1 := by
  simp only [addFields]
  split
  · exact (tryEmplace_grows _ _ _).trans (addAll_grows _ _ _)
  · exact tryEmplace_grows _ _ _

theorem addFields_ok {m : List (IName × Nat)} {key : IName} {i : Nat} {al : List (IName × List IName)}
    (h : (addFields m key i al).2 = true) :
    (addFields m key i al).1.lookup key = some i ∧
    ∀ a ∈ (al.lookup key).getD [], (addFields m key i al).1.lookup a = some i := by
  simp only [addFields] at h ⊢
  split at h
  · rename_i hb
    rw [if_pos hb]
    refine ⟨?_, addAll_ok h⟩
    apply addAll_grows
    rw [(tryEmplace_ok hb).2]
    exact lookup_cons_self
  · cases h

theorem addFields_refused {m : List (IName × Nat)} {key : IName} {i j : Nat} {al : List (IName × List IName)}
    (h : m.lookup key = some j) : (addFields m key i al).2 = false := by
  simp [addFields, tryEmplace, h]

theorem map_setMap (hm : HM) (s t : Slot) (m : List (IName × Nat)) :
    (hm.setMap s m).map t = if t = s then m else hm.map t := by
  cases s <;> cases t <;> rfl

@[simp] theorem setMap_handles (hm : HM) (s : Slot) (m) : (hm.setMap s m).handles = hm.handles := by cases s <;> rfl
@[simp] theorem setMap_ids (hm : HM) (s : Slot) (m) : (hm.setMap s m).ids = hm.ids := by cases s <;> rfl
@[simp] theorem setMap_aliases (hm : HM) (s : Slot) (m) : (hm.setMap s m).aliases = hm.aliases := by cases s <;> rfl

/-- the records and identifiers are kept, the maps only grow -/
structure Ext (a b : HM) : Prop where
  handles : b.handles = a.handles
  ids : b.ids = a.ids
  maps : ∀ s, Grows (a.map s) (b.map s)

theorem Ext.refl (a : HM) : Ext a a := ⟨rfl, rfl, fun _ => .refl _⟩
theorem Ext.trans {a b c : HM} (h : Ext a b) (k : Ext b c) : Ext a c :=
  ⟨k.handles.trans h.handles, k.ids.trans h.ids, fun s => (h.maps s).trans (k.maps s)⟩

theorem ext_setMap (hm : HM) (s : Slot) (m) (h : Grows (hm.map s) m) : Ext hm (hm.setMap s m) := by
  refine ⟨by simp, by simp, fun t => ?_⟩
  rw [map_setMap]
  split
  · rename_i e; subst e; exact h
  · exact .refl _

theorem addSlots_ext (hm : HM) (key : IName) (i : Nat) (ss : List Slot) :
    Ext hm (addSlots hm key i ss).1 ∧ (addSlots hm key i ss).1.aliases = hm.aliases := by
  induction ss generalizing hm with
  | nil => exact ⟨.refl _, rfl⟩
  | cons s ss ih =>
    simp only [addSlots]
    have h := ext_setMap hm s _ (addFields_grows (hm.map s) key i hm.aliases)
    split
    · have := ih (hm.setMap s (addFields (hm.map s) key i hm.aliases).1)
      exact ⟨h.trans this.1, this.2.trans (by simp)⟩
    · exact ⟨h, by simp⟩

theorem addSlots_ok {hm : HM} {key : IName} {i : Nat} {ss : List Slot} (h : (addSlots hm key i ss).2 = true) :
    ∀ s ∈ ss, ((addSlots hm key i ss).1.map s).lookup key = some i ∧
      ∀ a ∈ (hm.aliases.lookup key).getD [], ((addSlots hm key i ss).1.map s).lookup a = some i := by
  induction ss generalizing hm with
  | nil => simp
  | cons s ss ih =>
    simp only [addSlots] at h ⊢
    split at h
    · rename_i hb
      rw [if_pos hb]
      have hk := addFields_ok hb
      have hx := (addSlots_ext (hm.setMap s (addFields (hm.map s) key i hm.aliases).1) key i ss).1.maps s
      rw [map_setMap, if_pos rfl] at hx
      intro t ht
      rcases List.mem_cons.mp ht with rfl | ht
      · exact ⟨hx _ _ hk.1, fun a ha => hx _ _ (hk.2 a ha)⟩
      · have := ih h t ht
        rw [setMap_aliases] at this
        exact this
    · cases h

/-- a name taken in one of the maps is refused -/
theorem addSlots_refused {hm : HM} {key : IName} {i j : Nat} {ss : List Slot} {s : Slot} (hs : s ∈ ss)
    (h : (hm.map s).lookup key = some j) : (addSlots hm key i ss).2 = false := by
  induction ss generalizing hm with
  | nil => cases hs
  | cons t ss ih =>
    simp only [addSlots]
    by_cases e : s = t
    · subst e
      rw [if_neg (by rw [addFields_refused h]; simp)]
    · split
      · refine ih (by rcases List.mem_cons.mp hs with h' | h'; exact absurd h' e; exact h') ?_
        rw [map_setMap, if_neg e]; exact h
      · rfl

theorem addSearchFields_facts (hm : HM) (info : HInfo) (i : Nat) :
    let r := addSearchFields hm info i
    r.1.handles = hm.handles ∧ (∀ s, Grows (hm.map s) (r.1.map s)) ∧ r.1.aliases = hm.aliases ∧
    (r.2 = false → r.1.ids = hm.ids) ∧
    (r.2 = true → r.1.ids = (tryEmplace hm.ids info.gh i).1 ∧
      (info.key ≠ [] → ∀ s ∈ slotsOf info.kind, (r.1.map s).lookup info.key = some i ∧
        ∀ a ∈ (hm.aliases.lookup info.key).getD [], (r.1.map s).lookup a = some i)) := by
  simp only
  by_cases hk : info.key = []
  · have : addSearchFields hm info i = ({ hm with ids := (tryEmplace hm.ids info.gh i).1 }, true) := by
      unfold addSearchFields; simp [hk]
    rw [this]
    refine ⟨rfl, fun s => ?_, rfl, by simp, fun _ => ⟨rfl, fun h => absurd hk h⟩⟩
    cases s <;> exact .refl _
  · obtain ⟨he, ha⟩ := addSlots_ext hm info.key i (slotsOf info.kind)
    have hok := addSlots_ok (hm := hm) (key := info.key) (i := i) (ss := slotsOf info.kind)
    have : addSearchFields hm info i = (if (addSlots hm info.key i (slotsOf info.kind)).2 then
        ({ (addSlots hm info.key i (slotsOf info.kind)).1 with
          ids := (tryEmplace (addSlots hm info.key i (slotsOf info.kind)).1.ids info.gh i).1 }, true)
        else ((addSlots hm info.key i (slotsOf info.kind)).1, false)) := by
      unfold addSearchFields; simp [hk]
    rw [this]
    generalize addSlots hm info.key i (slotsOf info.kind) = r at he ha hok
    split
    · rename_i h2
      refine ⟨he.handles, fun s => ?_, ha, by simp, fun _ => ⟨by simp only; rw [he.ids], fun _ s hs => ?_⟩⟩
      · have := he.maps s
        cases s <;> exact this
      · have := hok h2 s hs
        cases s <;> exact this
    · exact ⟨he.handles, he.maps, ha, fun _ => he.ids, by simp⟩

theorem addSearchFields_refused {hm : HM} {info : HInfo} {i j : Nat} {s : Slot} (hk : info.key ≠ [])
    (hs : s ∈ slotsOf info.kind) (h : (hm.map s).lookup info.key = some j) : (addSearchFields hm info i).2 = false := by
  unfold addSearchFields
  simp [hk, addSlots_refused hs h]

theorem eraseSlots_facts (hm : HM) (key : IName) (ss : List Slot) :
    (eraseSlots hm key ss).handles = hm.handles ∧ (eraseSlots hm key ss).ids = hm.ids ∧
    (eraseSlots hm key ss).aliases = hm.aliases ∧
    ∀ s x, ((eraseSlots hm key ss).map s).lookup x = if x = key ∧ s ∈ ss then none else (hm.map s).lookup x := by
  induction ss generalizing hm with
  | nil => simp [eraseSlots]
  | cons t ss ih =>
    simp only [eraseSlots]
    obtain ⟨h1, h2, h3, h4⟩ := ih (hm.setMap t (eraseKey (hm.map t) key))
    refine ⟨h1.trans (by simp), h2.trans (by simp), h3.trans (by simp), fun s x => ?_⟩
    rw [h4 s x, map_setMap]
    by_cases hx : x = key
    · subst hx
      by_cases hs : s = t
      · subst hs
        simp [lookup_eraseKey_self]
      · simp [hs]
    · simp only [hx, false_and, if_false]
      split
      · rename_i e; subst e; exact lookup_eraseKey_ne _ hx
      · rfl

theorem mem_eraseOf (k : IfKind) (s : Slot) : s ∈ eraseOf k ↔ s ∈ slotsOf k := by
  cases k <;> cases s <;> decide

/-- what a removal does -/
theorem removeHandle_facts (hm : HM) (g : GHandle) (i : Nat) (h : hm.ids.lookup g = some i) :
    (removeHandle hm g).handles = hm.handles.set i {} ∧ (removeHandle hm g).ids = eraseKey hm.ids g ∧
    (removeHandle hm g).aliases = hm.aliases ∧
    ∀ s x, ((removeHandle hm g).map s).lookup x =
      if x = (hm.handles.getD i {}).key ∧ x ≠ [] ∧ s ∈ slotsOf (hm.handles.getD i {}).kind then none else (hm.map s).lookup x := by
  unfold removeHandle
  rw [h]
  simp only
  generalize hm.handles.getD i {} = info
  by_cases hk : info.key = []
  · rw [if_neg (by simp [hk])]
    refine ⟨rfl, rfl, rfl, fun s x => ?_⟩
    rw [if_neg (by rintro ⟨a, b, _⟩; exact b (a.trans hk))]
    cases s <;> rfl
  · rw [if_pos hk]
    obtain ⟨h1, h2, h3, h4⟩ := eraseSlots_facts { hm with ids := eraseKey hm.ids g } info.key (eraseOf info.kind)
    refine ⟨congrArg (fun l : List HInfo => l.set i {}) h1, h2, h3, fun s x => ?_⟩
    have := h4 s x
    simp only [mem_eraseOf] at this
    have e : (({ hm with ids := eraseKey hm.ids g } : HM).map s) = hm.map s := by cases s <;> rfl
    rw [e] at this
    have e2 : ({ eraseSlots { hm with ids := eraseKey hm.ids g } info.key (eraseOf info.kind) with
        handles := (eraseSlots { hm with ids := eraseKey hm.ids g } info.key (eraseOf info.kind)).handles.set i {} } : HM).map s =
        (eraseSlots { hm with ids := eraseKey hm.ids g } info.key (eraseOf info.kind)).map s := by cases s <;> rfl
    rw [e2, this]
    by_cases hx : x = info.key
    · subst hx; simp [hk]
    · simp [hx]

theorem removeHandle_none (hm : HM) (g : GHandle) (h : hm.ids.lookup g = none) : removeHandle hm g = hm := by
  unfold removeHandle; rw [h]

theorem mapAlias_grows (m : List (IName × Nat)) (a b : IName) : Grows m (mapAlias m a b).1 := by
  unfold mapAlias
  split
  · split
    · exact .refl _
    · rename_i h; exact grows_cons h
  · split
    · exact tryEmplace_grows _ _ _
    · exact .refl _

theorem mapAlias_ok {m : List (IName × Nat)} {a b : IName} {i : Nat} (h : (mapAlias m a b).2 = true)
    (ha : m.lookup a = some i) : (mapAlias m a b).1.lookup b = some i := by
  unfold mapAlias at h ⊢
  rw [ha] at h ⊢
  simp only at h ⊢
  split at h
  · rename_i j hj
    have : j = i := by simpa using h
    rw [hj, this]
  · exact lookup_cons_self

theorem slotAlias_ext (hm : HM) (a b : IName) (ss : List Slot) :
    Ext hm (slotAlias hm a b ss).1 ∧ (slotAlias hm a b ss).1.aliases = hm.aliases := by
  induction ss generalizing hm with
  | nil => exact ⟨.refl _, rfl⟩
  | cons s ss ih =>
    simp only [slotAlias]
    have h := ext_setMap hm s _ (mapAlias_grows (hm.map s) a b)
    split
    · have := ih (hm.setMap s (mapAlias (hm.map s) a b).1)
      exact ⟨h.trans this.1, this.2.trans (by simp)⟩
    · exact ⟨h, by simp⟩

theorem slotAlias_ok {hm : HM} {a b : IName} {ss : List Slot} {i : Nat} (h : (slotAlias hm a b ss).2 = true) :
    ∀ s ∈ ss, (hm.map s).lookup a = some i → ((slotAlias hm a b ss).1.map s).lookup b = some i := by
  induction ss generalizing hm with
  | nil => simp
  | cons t ss ih =>
    simp only [slotAlias] at h ⊢
    split at h
    · rename_i hb
      rw [if_pos hb]
      intro s hs ha
      by_cases e : s = t
      · subst e
        have hx := (slotAlias_ext (hm.setMap s (mapAlias (hm.map s) a b).1) a b ss).1.maps s
        rw [map_setMap, if_pos rfl] at hx
        exact hx _ _ (mapAlias_ok hb ha)
      · refine ih h s (by rcases List.mem_cons.mp hs with h' | h'; exact absurd h' e; exact h') ?_
        rw [map_setMap, if_neg e]; exact ha
    · cases h

theorem cascade_ext (hm : HM) (a b : IName) (as : List IName) :
    Ext hm (cascade hm a b as).1 ∧ (cascade hm a b as).1.aliases = hm.aliases := by
  induction as generalizing hm with
  | nil => exact ⟨.refl _, rfl⟩
  | cons x as ih =>
    simp only [cascade]
    have h := slotAlias_ext hm x a aliasOrder
    split
    · split
      · have := ih (slotAlias hm x a aliasOrder).1
        exact ⟨h.1.trans this.1, this.2.trans h.2⟩
      · exact h
    · exact ih hm

/-- aliases are only added -/
def AGrows (a b : HM) : Prop := ∀ x v, a.aliases.lookup x = some v → ∃ v', b.aliases.lookup x = some v' ∧ ∀ y ∈ v, y ∈ v'

theorem AGrows.refl (a : HM) : AGrows a a := fun _ v h => ⟨v, h, fun _ h => h⟩
theorem AGrows.trans {a b c : HM} (h : AGrows a b) (k : AGrows b c) : AGrows a c := by
  intro x v e
  obtain ⟨v1, h1, h2⟩ := h x v e
  obtain ⟨v2, h3, h4⟩ := k x v1 h1
  exact ⟨v2, h3, fun y hy => h4 y (h2 y hy)⟩
theorem AGrows.of_eq {a b : HM} (h : b.aliases = a.aliases) : AGrows a b := fun _ v e => ⟨v, by rw [h]; exact e, fun _ h => h⟩

theorem mem_insertSorted (b x : IName) (v : List IName) : x ∈ insertSorted b v ↔ x = b ∨ x ∈ v := by
  induction v with
  | nil => simp [insertSorted]
  | cons y v ih =>
    unfold insertSorted
    split
    · simp [ih]
      constructor
      · rintro (h | h | h) <;> simp [h]
      · rintro (h | h | h) <;> simp [h]
    · simp

theorem ext_setAliases (hm : HM) (a : IName) (v : List IName) (u : Bool) :
    Ext hm { hm.setAliases a v with ub := u } := ⟨rfl, rfl, fun s => by cases s <;> exact .refl _⟩

theorem lookup_setAliases (hm : HM) (a x : IName) (v : List IName) :
    (hm.setAliases a v).aliases.lookup x = if x = a then some v else hm.aliases.lookup x := by
  unfold setAliases
  simp only
  split
  · rename_i e; subst e; exact lookup_cons_self
  · rename_i e
    rw [lookup_cons_ne e, lookup_eraseKey_ne _ e]

theorem addAliasName_facts (n : Nat) (act : List IName) (hm : HM) (a b : IName) :
    Ext hm (addAliasName n act hm a b).1 ∧ AGrows hm (addAliasName n act hm a b).1 := by
  induction n generalizing act hm a b with
  | zero => exact ⟨.refl _, .refl _⟩
  | succ n ih =>
    unfold addAliasName
    split
    · exact ⟨.refl _, .refl _⟩
    · split
      · rename_i hn
        have h := ih act (hm.setAliases a [b]) b a
        refine ⟨(ext_setAliases hm a [b] hm.ub).trans h.1, AGrows.trans (b := hm.setAliases a [b]) ?_ h.2⟩
        intro x v e
        refine ⟨v, ?_, fun _ h => h⟩
        rw [lookup_setAliases, if_neg]
        · exact e
        · rintro rfl; rw [hn] at e; cases e
      · rename_i v hv
        split
        · exact ⟨.refl _, .refl _⟩
        · simp only
          have h0 : Ext hm { hm.setAliases a (insertSorted b v) with ub := hm.ub || act.contains a } ∧
              AGrows hm { hm.setAliases a (insertSorted b v) with ub := hm.ub || act.contains a } := by
            refine ⟨ext_setAliases _ _ _ _, ?_⟩
            intro x w e
            show ∃ v', (hm.setAliases a (insertSorted b v)).aliases.lookup x = some v' ∧ _
            rw [lookup_setAliases]
            split
            · rename_i ea; subst ea
              rw [hv] at e; cases e
              exact ⟨_, rfl, fun y hy => (mem_insertSorted _ _ _).mpr (Or.inr hy)⟩
            · exact ⟨w, e, fun _ h => h⟩
          have hf : ∀ (l : List IName) (h : HM), Ext h (l.foldl (fun h o => (addAliasName n (a :: act) h o b).1) h) ∧
              AGrows h (l.foldl (fun h o => (addAliasName n (a :: act) h o b).1) h) := by
            intro l
            induction l with
            | nil => intro h; exact ⟨.refl _, .refl _⟩
            | cons o l ihl =>
              intro h
              simp only [List.foldl_cons]
              have h1 := ih (a :: act) h o b
              have h2 := ihl (addAliasName n (a :: act) h o b).1
              exact ⟨h1.1.trans h2.1, h1.2.trans h2.2⟩
          have h1 := hf (insertSorted b v) { hm.setAliases a (insertSorted b v) with ub := hm.ub || act.contains a }
          have h2 := ih act ((insertSorted b v).foldl (fun h o => (addAliasName n (a :: act) h o b).1)
            { hm.setAliases a (insertSorted b v) with ub := hm.ub || act.contains a }) b a
          exact ⟨(h0.1.trans h1.1).trans h2.1, (h0.2.trans h1.2).trans h2.2⟩

/-- the alias is remembered -/
theorem addAliasName_mem (n : Nat) (act : List IName) (hm : HM) (a b : IName) (h : a ≠ b) :
    ∃ v, (addAliasName (n + 1) act hm a b).1.aliases.lookup a = some v ∧ b ∈ v := by
  unfold addAliasName
  rw [if_neg h]
  split
  · obtain ⟨v, h1, h2⟩ := (addAliasName_facts n act (hm.setAliases a [b]) b a).2 a [b] (by
      rw [lookup_setAliases, if_pos rfl])
    exact ⟨v, h1, h2 b (by simp)⟩
  · rename_i v hv
    split
    · rename_i hb; exact ⟨v, hv, hb⟩
    · simp only
      have hf : ∀ (l : List IName) (h : HM), AGrows h (l.foldl (fun h o => (addAliasName n (a :: act) h o b).1) h) := by
        intro l
        induction l with
        | nil => intro h; exact .refl _
        | cons o l ihl =>
          intro h
          simp only [List.foldl_cons]
          exact (addAliasName_facts n (a :: act) h o b).2.trans (ihl _)
      have h1 := hf (insertSorted b v) { hm.setAliases a (insertSorted b v) with ub := hm.ub || act.contains a }
      obtain ⟨w, h2, h3⟩ := (h1.trans (addAliasName_facts n act _ b a).2) a (insertSorted b v) (by
        show (hm.setAliases a (insertSorted b v)).aliases.lookup a = _
        rw [lookup_setAliases, if_pos rfl])
      exact ⟨w, h2, h3 b ((mem_insertSorted _ _ _).mpr (Or.inl rfl))⟩

theorem aliasHalf_facts (n : Nat) (hm : HM) (a b c : IName) :
    Ext hm (aliasHalf n hm a b c).1 ∧ AGrows hm (aliasHalf n hm a b c).1 := by
  unfold aliasHalf
  simp only
  have h := addAliasName_facts n [] hm a b
  generalize addAliasName n [] hm a b = r at h
  have h2 : Ext r.1 (if r.2 = true then cascade r.1 a c ((r.1.aliases.lookup a).getD []) else (r.1, true)).1 ∧
      (if r.2 = true then cascade r.1 a c ((r.1.aliases.lookup a).getD []) else (r.1, true)).1.aliases = r.1.aliases := by
    split
    · exact cascade_ext _ _ _ _
    · exact ⟨.refl _, rfl⟩
  generalize (if r.2 = true then cascade r.1 a c ((r.1.aliases.lookup a).getD []) else (r.1, true)) = q at h2
  split
  · have h3 := slotAlias_ext q.1 a b aliasOrder
    exact ⟨(h.1.trans h2.1).trans h3.1, (h.2.trans (.of_eq h2.2)).trans (.of_eq h3.2)⟩
  · exact ⟨h.1.trans h2.1, h.2.trans (.of_eq h2.2)⟩

/-- a half that does not throw enters the alias wherever the name is known, and remembers it -/
theorem aliasHalf_ok {n : Nat} {hm : HM} {a b c : IName} (h : (aliasHalf (n + 1) hm a b c).2 = true) :
    (∀ s i, (hm.map s).lookup a = some i → ((aliasHalf (n + 1) hm a b c).1.map s).lookup b = some i) ∧
    (a ≠ b → ∃ v, (aliasHalf (n + 1) hm a b c).1.aliases.lookup a = some v ∧ b ∈ v) := by
  unfold aliasHalf at h ⊢
  simp only at h ⊢
  have hf := addAliasName_facts (n + 1) [] hm a b
  have hm' := addAliasName_mem n [] hm a b
  generalize addAliasName (n + 1) [] hm a b = r at hf hm' h
  have h2 : Ext r.1 (if r.2 = true then cascade r.1 a c ((r.1.aliases.lookup a).getD []) else (r.1, true)).1 ∧
      (if r.2 = true then cascade r.1 a c ((r.1.aliases.lookup a).getD []) else (r.1, true)).1.aliases = r.1.aliases := by
    split
    · exact cascade_ext _ _ _ _
    · exact ⟨.refl _, rfl⟩
  generalize (if r.2 = true then cascade r.1 a c ((r.1.aliases.lookup a).getD []) else (r.1, true)) = q at h2 h
  split at h
  · rename_i hq
    rw [if_pos hq]
    refine ⟨fun s i hi => ?_, fun hne => ?_⟩
    · exact slotAlias_ok h s (by cases s <;> decide) ((hf.1.trans h2.1).maps s _ _ hi)
    · obtain ⟨v, h3, h4⟩ := hm' hne
      exact ⟨v, by rw [(slotAlias_ext q.1 a b aliasOrder).2, h2.2]; exact h3, h4⟩
  · rename_i hq
    exact absurd h hq

theorem addAlias_facts (n : Nat) (hm : HM) (a b : IName) :
    Ext hm (addAlias n hm a b).1 ∧ AGrows hm (addAlias n hm a b).1 := by
  unfold addAlias
  simp only
  have h := aliasHalf_facts n hm a b b
  split
  · have h2 := aliasHalf_facts n (aliasHalf n hm a b b).1 b a b
    exact ⟨h.1.trans h2.1, h.2.trans h2.2⟩
  · exact h

theorem addAlias_ok {n : Nat} {hm : HM} {a b : IName} (h : (addAlias (n + 1) hm a b).2 = true) :
    (∀ s i, (hm.map s).lookup a = some i → ((addAlias (n + 1) hm a b).1.map s).lookup b = some i) ∧
    (∀ s i, (hm.map s).lookup b = some i → ((addAlias (n + 1) hm a b).1.map s).lookup a = some i) ∧
    (a ≠ b → ∃ v, (addAlias (n + 1) hm a b).1.aliases.lookup a = some v ∧ b ∈ v) ∧
    (a ≠ b → ∃ v, (addAlias (n + 1) hm a b).1.aliases.lookup b = some v ∧ a ∈ v) := by
  unfold addAlias at h ⊢
  simp only at h ⊢
  split at h
  · rename_i h1
    rw [if_pos h1]
    obtain ⟨p1, p2⟩ := aliasHalf_ok h1
    obtain ⟨q1, q2⟩ := aliasHalf_ok h
    have e1 := aliasHalf_facts (n + 1) hm a b b
    have e2 := aliasHalf_facts (n + 1) (aliasHalf (n + 1) hm a b b).1 b a b
    refine ⟨fun s i hi => e2.1.maps s _ _ (p1 s i hi), fun s i hi => q1 s i (e1.1.maps s _ _ hi), fun hne => ?_, fun hne => q2 (Ne.symm hne)⟩
    obtain ⟨v, h3, h4⟩ := p2 hne
    obtain ⟨w, h5, h6⟩ := e2.2 a v h3
    exact ⟨w, h5, h6 b h4⟩
  · rename_i h1
    exact absurd h h1

end HM
end Verif
