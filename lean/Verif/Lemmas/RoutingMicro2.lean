import Verif.Lemmas.RoutingMicro
/-! The invariant of the registration protocol: new entries and answers, for C55. -/
namespace Verif.Routes

variable {net : Net} {s : Sys}

/-- a broker's table, in one place -/
structure NodeOk (net : Net) (s' : Sys) (v : Node) (x : NodeSt) : Prop where
  keys : ∀ e e', e ∈ x.ents → e' ∈ x.ents → e.who = e'.who → e = e'
  noRe : ∀ e, e ∈ x.ents → e.reent = false
  ent : ∀ e, e ∈ x.ents → Child net v e.route ∧ ∃ o, Trail net s' e.who o e.route
  entId : ∀ e i, e ∈ x.ents → e.id = some i → i ≠ 0 → Assigned s' e.who i ∧ x.table i = some e.route
  tab : ∀ i c, x.table i = some c → i ≠ 0 → ∃ e ∈ x.ents, e.id = some i ∧ e.route = c
  tabUp : ∀ i c, v ≠ 0 → x.table i = some c → i ≠ 0 → (s'.node (net.par v)).table i = some v
  own : ∀ i, v ≠ 0 → x.id = some i → Assigned s' (.brk v) i ∧ (s'.node (net.par v)).table i = some v
  up : ∀ i, v ≠ 0 → x.up = some i → (s'.node (net.par v)).id = some i

/-- changes of a broker's entries, table and identifier -/
theorem Inv1.hard (I : Inv1 net s) {v : Node} {x : NodeSt}
    (hf : x.feds = (s.node v).feds) (hdl : x.delayed = (s.node v).delayed)
    (E : Ext s (s.setNode v x)) (N : NodeOk net (s.setNode v x) v x)
    (hroot : v = 0 → x.id = some Routes.rootId ∧ x.up = none ∧
      (∀ e, e ∈ x.ents → ∃ i, e.id = some i ∧ idRange x e.who i) ∧
      (∀ e e' i, e ∈ x.ents → e' ∈ x.ents → e.id = some i → e'.id = some i → e.who = e'.who))
    (ht : ∀ u w, u ≠ 0 → Turn net (s.setNode v x) u w) :
    Inv1 net (s.setNode v x) := by
  refine ⟨?_, ?_, ?_, ?_, ?_, ?_, ?_, ?_, ?_, ?_, ?_, ?_, ?_, ?_, ?_, ?_, ht⟩
  · exact allNodes (P := fun u y => ∀ e e', e ∈ y.ents → e' ∈ y.ents → e.who = e'.who → e = e') I.keys N.keys
  · exact allNodes (P := fun u y => ∀ e, e ∈ y.ents → e.reent = false) I.noRe N.noRe
  · exact allNodes (P := fun u y => ∀ l l', l ∈ y.feds → l' ∈ y.feds → l.name = l'.name → l = l') I.fedKeys
      (by rw [hf]; exact I.fedKeys v)
  · exact allNodes (P := fun u y => ∀ l, l ∈ y.feds → net.core u = true ∧ l.reent = false) I.fedRe
      (by rw [hf]; exact I.fedRe v)
  · by_cases h0 : 0 = v
    · subst h0; rw [setNode_same]; exact ⟨(hroot rfl).1, (hroot rfl).2.1⟩
    · rw [setNode_ne _ _ h0]; exact I.rootId
  · intro u e
    by_cases hu : u = v
    · subst hu; rw [setNode_same]; exact N.ent e
    · rw [setNode_ne _ _ hu]; intro he
      obtain ⟨h1, o, h2⟩ := I.ent u e he
      exact ⟨h1, o, E.trail h2⟩
  · intro u e i
    by_cases hu : u = v
    · subst hu; rw [setNode_same]; exact N.entId e i
    · rw [setNode_ne _ _ hu]; intro he hi h0
      obtain ⟨h1, h2⟩ := I.entId u e i he hi h0
      exact ⟨E.assigned h1, h2⟩
  · by_cases h0 : 0 = v
    · subst h0; rw [setNode_same]; exact (hroot rfl).2.2.1
    · rw [setNode_ne _ _ h0]; exact I.rootIds
  · by_cases h0 : 0 = v
    · subst h0; rw [setNode_same]; exact (hroot rfl).2.2.2
    · rw [setNode_ne _ _ h0]; exact I.uniq
  · exact allNodes (P := fun u y => ∀ i c, y.table i = some c → i ≠ 0 → ∃ e ∈ y.ents, e.id = some i ∧ e.route = c)
      I.tab N.tab
  · intro u i c
    by_cases hu : u = v
    · subst hu; rw [setNode_same]; exact N.tabUp i c
    · rw [setNode_ne _ _ hu]; intro hu hi h0
      exact E.table _ _ _ (I.tabUp u i c hu hi h0)
  · intro u i
    by_cases hu : u = v
    · subst hu; rw [setNode_same]; exact N.own i
    · rw [setNode_ne _ _ hu]; intro hu hi
      obtain ⟨h1, h2⟩ := I.own u i hu hi
      exact ⟨E.assigned h1, E.table _ _ _ h2⟩
  · intro u l i hl hi
    have hl' : l ∈ (s.node u).feds := by
      by_cases hu : u = v
      · subst hu; rw [setNode_same, hf] at hl; exact hl
      · rw [setNode_ne _ _ hu] at hl; exact hl
    obtain ⟨h1, h2⟩ := I.ownFed u l i hl' hi
    exact ⟨E.assigned h1, E.table _ _ _ h2⟩
  · intro u i
    by_cases hu : u = v
    · subst hu; rw [setNode_same]; exact N.up i
    · rw [setNode_ne _ _ hu]; intro hu hi
      exact E.id _ _ (I.up u i hu hi)
  · intro a b p h; exact E.good (I.good a b p h)
  · intro u c hc
    have hc' : c ∈ (s.node u).delayed := by
      by_cases hu : u = v
      · subst hu; rw [setNode_same, hdl] at hc; exact hc
      · rw [setNode_ne _ _ hu] at hc; exact hc
    obtain ⟨h1, src, w, g, h2, o, h3⟩ := I.del u c hc'
    exact ⟨h1, src, w, g, h2, o, E.trail h3⟩

theorem nreg_setNode {v : Node} {x : NodeSt} (hdl : x.delayed = (s.node v).delayed) (u : Node) (w : Who) :
    nreg net (s.setNode v x) u w = nreg net s u w := by
  unfold nreg
  by_cases hu : u = v
  · subst hu; rw [setNode_same, hdl]; rfl
  · rw [setNode_ne _ _ hu]; rfl

/-- `Turn` after entries were added or answered at `v` -/
theorem Inv1.turnEnts (I : Inv1 net s) (h : net.Ok) {v : Node} {x : NodeSt}
    (hdl : x.delayed = (s.node v).delayed) (w : Who)
    -- other names: nothing changes
    (hsame : ∀ e, e.who ≠ w → (e ∈ x.ents ↔ e ∈ (s.node v).ents))
    -- as a child: either the entry still waits, or nothing is going on
    (hself : v ≠ 0 → (VNone s v w → ∀ e, e ∈ x.ents → e.who = w → e.id = none) ∨
      (nreg net s v w = 0 ∧ nack net s v w = 0 ∧ ¬ EuNone net s v w))
    -- as a parent
    (hpar : ∀ c, Child net v c →
      ((∃ e ∈ x.ents, e.who = w ∧ e.route = c) → nreg net s c w = 0) ∧
      ((∃ e ∈ x.ents, e.who = w ∧ e.route = c ∧ e.id = none) → nack net s c w = 0 ∧ VNone s c w))
    (u : Node) (w' : Who) (hu : u ≠ 0) : Turn net (s.setNode v x) u w' := by
  have t := I.turn u w' hu
  have nr := nreg_setNode (net := net) hdl u w'
  have na : nack net (s.setNode v x) u w' = nack net s u w' := rfl
  -- entries at `v` of another name
  have vnO : w' ≠ w → (VNone (s.setNode v x) u w' ↔ VNone s u w') := by
    intro hw
    unfold VNone
    by_cases hv : u = v
    · subst hv; rw [setNode_same]
      exact ⟨fun hh e he hwe => hh e ((hsame e (by rw [hwe]; exact hw)).2 he) hwe,
             fun hh e he hwe => hh e ((hsame e (by rw [hwe]; exact hw)).1 he) hwe⟩
    · rw [setNode_ne _ _ hv]
  have mem : ∀ e, e.who ≠ w → (e ∈ ((s.setNode v x).node (net.par u)).ents ↔ e ∈ (s.node (net.par u)).ents) := by
    intro e he
    by_cases hp : net.par u = v
    · rw [hp, setNode_same]; exact hsame e he
    · rw [setNode_ne _ _ hp]
  by_cases hw : w' = w
  · subst hw
    -- the child side
    by_cases hv : u = v
    · subst hv
      have hne : net.par u ≠ u := Nat.ne_of_lt (h.below u hu)
      have eu : Eu net (s.setNode u x) u w' ↔ Eu net s u w' := by unfold Eu; rw [setNode_ne _ _ hne]
      have en : EuNone net (s.setNode u x) u w' ↔ EuNone net s u w' := by
        unfold EuNone; rw [setNode_ne _ _ hne]
      rcases hself hu with hs | ⟨h1, h2, h3⟩
      · have vn : VNone s u w' → VNone (s.setNode u x) u w' := by
          intro hh; unfold VNone; rw [setNode_same]; exact hs hh
        refine ⟨by rw [nr, na]; exact t.one, fun hh => ?_, fun hh => ?_, fun hh => vn (t.wait (en.1 hh))⟩
        · rw [nr] at hh; rw [eu]; exact ⟨vn (t.reg hh).1, (t.reg hh).2⟩
        · rw [na] at hh; rw [en]; exact ⟨vn (t.ack hh).1, (t.ack hh).2⟩
      · refine ⟨by rw [nr, na]; omega, fun hh => ?_, fun hh => ?_, fun hh => absurd (en.1 hh) h3⟩
        · rw [nr] at hh; omega
        · rw [na] at hh; omega
    · have vn : VNone (s.setNode v x) u w' ↔ VNone s u w' := by unfold VNone; rw [setNode_ne _ _ hv]
      by_cases hp : net.par u = v
      · obtain ⟨p1, p2⟩ := hpar u ⟨hu, hp⟩
        have eu : Eu net (s.setNode v x) u w' → nreg net s u w' = 0 := by
          unfold Eu; rw [hp, setNode_same]; exact p1
        have en : EuNone net (s.setNode v x) u w' → nack net s u w' = 0 ∧ VNone s u w' := by
          unfold EuNone; rw [hp, setNode_same]; exact p2
        refine ⟨by rw [nr, na]; exact t.one, fun hh => ?_, fun hh => ?_, fun hh => vn.2 (en hh).2⟩
        · rw [nr] at hh
          exact ⟨vn.2 (t.reg hh).1, fun he => by have := eu he; omega⟩
        · rw [na] at hh
          exact ⟨vn.2 (t.ack hh).1, fun he => by have := (en he).1; omega⟩
      · have eu : Eu net (s.setNode v x) u w' ↔ Eu net s u w' := by unfold Eu; rw [setNode_ne _ _ hp]
        have en : EuNone net (s.setNode v x) u w' ↔ EuNone net s u w' := by
          unfold EuNone; rw [setNode_ne _ _ hp]
        refine ⟨by rw [nr, na]; exact t.one, fun hh => ?_, fun hh => ?_, fun hh => vn.2 (t.wait (en.1 hh))⟩
        · rw [nr] at hh; rw [vn, eu]; exact t.reg hh
        · rw [na] at hh; rw [vn, en]; exact t.ack hh
  · have vn := vnO hw
    have eu : Eu net (s.setNode v x) u w' ↔ Eu net s u w' := by
      unfold Eu
      exact ⟨fun ⟨e, he, h1, h2⟩ => ⟨e, (mem e (by rw [h1]; exact hw)).1 he, h1, h2⟩,
             fun ⟨e, he, h1, h2⟩ => ⟨e, (mem e (by rw [h1]; exact hw)).2 he, h1, h2⟩⟩
    have en : EuNone net (s.setNode v x) u w' ↔ EuNone net s u w' := by
      unfold EuNone
      exact ⟨fun ⟨e, he, h1, h2⟩ => ⟨e, (mem e (by rw [h1]; exact hw)).1 he, h1, h2⟩,
             fun ⟨e, he, h1, h2⟩ => ⟨e, (mem e (by rw [h1]; exact hw)).2 he, h1, h2⟩⟩
    refine ⟨by rw [nr, na]; exact t.one, fun hh => ?_, fun hh => ?_, fun hh => vn.2 (t.wait (en.1 hh))⟩
    · rw [nr] at hh; rw [vn, eu]; exact t.reg hh
    · rw [na] at hh; rw [vn, en]; exact t.ack hh

/-! ### a new entry -/

theorem mem_snoc {α : Type} {l : List α} {a x : α} : x ∈ l ++ [a] ↔ x ∈ l ∨ x = a := by
  simp

/-- a broker which is not the root enters a registration -/
theorem Inv1.enterUp (I : Inv1 net s) (h : net.Ok) {v r o : Node} {w : Who} (hv : v ≠ 0)
    (hnew : ∀ e, e ∈ (s.node v).ents → e.who ≠ w) (hc : Child net v r) (t : Trail net s w o r)
    (hr : nreg net s r w = 0) (ha : nack net s r w = 0) (hn : VNone s r w) :
    Inv1 net (s.setNode v { s.node v with ents := (s.node v).ents ++ [⟨w, r, none, false⟩] }) ∧
    Ext s (s.setNode v { s.node v with ents := (s.node v).ents ++ [⟨w, r, none, false⟩] }) := by
  have E : Ext s (s.setNode v { s.node v with ents := (s.node v).ents ++ [⟨w, r, none, false⟩] }) :=
    Ext.setNode (fun e he => ⟨e, mem_snoc.2 (.inl he), rfl, rfl, fun _ h => h⟩) (fun _ h => h) (fun _ _ h => h)
      (fun h => h) (fun l hl => ⟨l, hl, rfl, fun _ h => h⟩)
  refine ⟨I.hard rfl rfl E ?_ (fun e => absurd e hv) ?_, E⟩
  · have hpv : net.par v ≠ v := Nat.ne_of_lt (h.below v hv)
    refine ⟨?_, ?_, ?_, ?_, ?_, ?_, ?_, ?_⟩
    · intro e e' he he' hw
      rcases mem_snoc.1 he with he | he <;> rcases mem_snoc.1 he' with he' | he'
      · exact I.keys v e e' he he' hw
      · subst he'; exact absurd hw (hnew e he)
      · subst he; exact absurd hw.symm (hnew e' he')
      · rw [he, he']
    · intro e he
      rcases mem_snoc.1 he with he | he
      · exact I.noRe v e he
      · subst he; rfl
    · intro e he
      rcases mem_snoc.1 he with he | he
      · obtain ⟨h1, o, h2⟩ := I.ent v e he; exact ⟨h1, o, E.trail h2⟩
      · subst he; exact ⟨hc, o, E.trail t⟩
    · intro e i he hi h0
      rcases mem_snoc.1 he with he | he
      · obtain ⟨h1, h2⟩ := I.entId v e i he hi h0; exact ⟨E.assigned h1, h2⟩
      · subst he; cases hi
    · intro i c hi h0
      obtain ⟨e, he, h1⟩ := I.tab v i c hi h0
      exact ⟨e, mem_snoc.2 (.inl he), h1⟩
    · intro i c _ hi h0
      rw [setNode_ne _ _ hpv]; exact I.tabUp v i c hv hi h0
    · intro i _ hi
      obtain ⟨h1, h2⟩ := I.own v i hv hi
      rw [setNode_ne _ _ hpv]; exact ⟨E.assigned h1, h2⟩
    · intro i _ hi
      rw [setNode_ne _ _ hpv]; exact I.up v i hv hi
  · refine I.turnEnts h rfl w ?_ ?_ ?_
    · intro e he
      exact mem_snoc.trans ⟨fun hh => hh.elim id (fun hx => absurd (by rw [hx]) he), .inl⟩
    · intro _; left
      intro hh e he hw
      rcases mem_snoc.1 he with he | he
      · exact absurd hw (hnew e he)
      · subst he; rfl
    · intro c hcc
      have key : ∀ e, e ∈ (s.node v).ents ++ [(⟨w, r, none, false⟩ : Ent)] → e.who = w → e.route = r := by
        intro e he hw
        rcases mem_snoc.1 he with he | he
        · exact absurd hw (hnew e he)
        · subst he; rfl
      refine ⟨fun ⟨e, he, h1, h2⟩ => ?_, fun ⟨e, he, h1, h2, _⟩ => ?_⟩
      · have := key e he h1; rw [h2] at this; subst this; exact hr
      · have := key e he h1; rw [h2] at this; subst this; exact ⟨ha, hn⟩

theorem count_snoc (x : NodeSt) (a : Ent) (b : Bool) :
    ({ x with ents := x.ents ++ [a] } : NodeSt).count b = x.count b + (if a.who.isFed = b then 1 else 0) := by
  unfold NodeSt.count
  simp only [List.filter_append, List.length_append]
  congr 1
  by_cases h : a.who.isFed = b
  · simp [List.filter, h]
  · have : (a.who.isFed == b) = false := by simpa using h
    simp [List.filter, h, this]

theorem newId_range (x : NodeSt) (w : Who) (r : Node) (g : Nat)
    (hs : ({ x with ents := x.ents ++ [⟨w, r, some (x.newId w g), false⟩] } : NodeSt).count true ≤ 100000000) :
    idRange { x with ents := x.ents ++ [⟨w, r, some (x.newId w g), false⟩] } w (x.newId w g) ∧
    ∀ w' i, idRange x w' i → i ≠ x.newId w g := by
  cases w with
  | brk n =>
    refine ⟨?_, ?_⟩
    · simp only [idRange, count_snoc, NodeSt.newId, Who.isFed]
      simp only [if_true]
      constructor <;> omega
    · intro w' i hi he
      cases w' with
      | brk m => simp only [idRange] at hi; simp only [NodeSt.newId] at he; omega
      | fed m => simp only [idRange] at hi; simp only [NodeSt.newId] at he; omega
  | fed nm =>
    rw [count_snoc] at hs
    simp only [Who.isFed, if_true] at hs
    have key : ∀ k : Int, 0 ≤ k → k ≤ 16 → ∀ c : Nat, c < 100000000 →
        fedShift ≤ fedShift + c + k * block ∧ fedShift + c + k * block < brkShift ∧
        (fedShift + c + k * block - fedShift) % block = c := by
      intro k hk hk' c hc
      unfold fedShift brkShift block
      refine ⟨by omega, by omega, ?_⟩
      have : (131072 + (c : Int) + k * 100000000 - 131072) = c + 100000000 * k := by omega
      rw [this, Int.add_mul_emod_self_left]
      exact Int.emod_eq_of_lt (by omega) (by omega)
    obtain ⟨k, hk0, hk1, hk⟩ : ∃ k : Int, 0 ≤ k ∧ k ≤ 16 ∧ x.newId (.fed nm) g = fedShift + x.count true + k * block := by
      unfold NodeSt.newId
      simp only
      by_cases hg : 0 < g ∧ g ≤ 16
      · rw [if_pos hg]; exact ⟨g, by omega, by omega, rfl⟩
      · rw [if_neg hg]; exact ⟨0, by omega, by omega, by omega⟩
    obtain ⟨h1, h2, h3⟩ := key k hk0 hk1 (x.count true) (by omega)
    rw [hk]
    refine ⟨?_, ?_⟩
    · simp only [idRange, count_snoc, Who.isFed, if_true]
      refine ⟨h1, h2, ?_⟩
      rw [h3]; omega
    · intro w' i hi he
      subst he
      cases w' with
      | brk m => simp only [idRange] at hi; omega
      | fed m => simp only [idRange] at hi; rw [h3] at hi; omega

/-- the root enters a registration -/
theorem Inv1.enterRoot (I : Inv1 net s) (h : net.Ok) {r o : Node} {w : Who} {g : Nat}
    (hnew : ∀ e, e ∈ (s.node 0).ents → e.who ≠ w) (hc : Child net 0 r) (t : Trail net s w o r)
    (hr : nreg net s r w = 0) (ha : nack net s r w = 0) (hn : VNone s r w)
    {x : NodeSt}
    (hx : x = { s.node 0 with
      ents := (s.node 0).ents ++ [⟨w, r, some ((s.node 0).newId w g), false⟩]
      table := emplace (s.node 0).table ((s.node 0).newId w g) r })
    (hs : x.count true ≤ 100000000) :
    Inv1 net (s.setNode 0 x) ∧ Ext s (s.setNode 0 x) ∧ x.table ((s.node 0).newId w g) = some r ∧
      (s.node 0).newId w g ≠ 0 := by
  have hrange := newId_range (s.node 0) w r g (by rw [hx] at hs; exact hs)
  generalize hi : (s.node 0).newId w g = i at *
  have hi0 : i ≠ 0 := by
    intro e
    have := hrange.1
    cases w with
    | brk n => simp only [idRange] at this; unfold brkShift at this; omega
    | fed n => simp only [idRange] at this; unfold fedShift at this; omega
  have hold : ∀ e, e ∈ (s.node 0).ents → e.id ≠ some i := by
    intro e he hid
    obtain ⟨j, h1, h2⟩ := I.rootIds e he
    rw [hid] at h1; cases h1
    exact hrange.2 _ _ h2 rfl
  have hti : (s.node 0).table i = none := by
    cases ht : (s.node 0).table i with
    | none => rfl
    | some c =>
      obtain ⟨e, he, h1, _⟩ := I.tab 0 i c ht hi0
      exact absurd h1 (hold e he)
  have hents : x.ents = (s.node 0).ents ++ [⟨w, r, some i, false⟩] := by rw [hx]
  have htab : x.table = emplace (s.node 0).table i r := by rw [hx]
  have hxi : x.table i = some r := by rw [htab]; simp [emplace, hti]
  have E : Ext s (s.setNode 0 x) := by
    refine Ext.setNode (fun e he => ⟨e, by rw [hents]; exact mem_snoc.2 (.inl he), rfl, rfl, fun _ h => h⟩)
      (fun _ h => by rw [hx]; exact h) (fun j c hj => ?_) (fun h => by rw [hx]; exact h)
      (fun l hl => ⟨l, by rw [hx]; exact hl, rfl, fun _ h => h⟩)
    rw [htab]; unfold emplace
    by_cases hji : j = i
    · subst hji; rw [hti] at hj; cases hj
    · rw [if_neg hji]; exact hj
  refine ⟨I.hard (by rw [hx]) (by rw [hx]) E ?_ ?_ ?_, E, hxi, hi0⟩
  · refine ⟨?_, ?_, ?_, ?_, ?_, ?_, ?_, ?_⟩
    · rw [hents]
      intro e e' he he' hw
      rcases mem_snoc.1 he with he | he <;> rcases mem_snoc.1 he' with he' | he'
      · exact I.keys 0 e e' he he' hw
      · subst he'; exact absurd hw (hnew e he)
      · subst he; exact absurd hw.symm (hnew e' he')
      · rw [he, he']
    · rw [hents]; intro e he
      rcases mem_snoc.1 he with he | he
      · exact I.noRe 0 e he
      · subst he; rfl
    · rw [hents]; intro e he
      rcases mem_snoc.1 he with he | he
      · obtain ⟨h1, o, h2⟩ := I.ent 0 e he; exact ⟨h1, o, E.trail h2⟩
      · subst he; exact ⟨hc, o, E.trail t⟩
    · intro e j he hj h0
      rw [hents] at he
      rcases mem_snoc.1 he with he | he
      · obtain ⟨h1, h2⟩ := I.entId 0 e j he hj h0
        have := E.table 0 j _ h2; rw [setNode_same] at this
        exact ⟨E.assigned h1, this⟩
      · subst he
        cases hj
        refine ⟨⟨⟨w, r, some i, false⟩, ?_, rfl, rfl⟩, hxi⟩
        rw [setNode_same, hents]; exact mem_snoc.2 (.inr rfl)
    · intro j c hj h0
      rw [htab] at hj; unfold emplace at hj
      rw [hents]
      by_cases hji : j = i
      · rw [if_pos hji, hti] at hj; cases hj
        exact ⟨⟨w, r, some i, false⟩, mem_snoc.2 (.inr rfl), by rw [hji], rfl⟩
      · rw [if_neg hji] at hj
        obtain ⟨e, he, h1⟩ := I.tab 0 j c hj h0
        exact ⟨e, mem_snoc.2 (.inl he), h1⟩
    · intro j c hv; exact absurd rfl hv
    · intro j hv; exact absurd rfl hv
    · intro j hv; exact absurd rfl hv
  · intro _
    refine ⟨by rw [hx]; exact I.rootId.1, by rw [hx]; exact I.rootId.2, ?_, ?_⟩
    · intro e he
      rw [hents] at he
      have cm : ∀ b, (s.node 0).count b ≤ x.count b := by
        intro b
        have : x.count b = ({ s.node 0 with ents := (s.node 0).ents ++ [⟨w, r, some i, false⟩] } : NodeSt).count b := by
          unfold NodeSt.count; rw [hents]
        rw [this, count_snoc]; omega
      rcases mem_snoc.1 he with he | he
      · obtain ⟨j, h1, h2⟩ := I.rootIds e he
        refine ⟨j, h1, ?_⟩
        have c1 := cm true; have c2 := cm false
        cases hw : e.who with
        | brk n => rw [hw] at h2; simp only [idRange] at h2 ⊢; omega
        | fed n =>
          rw [hw] at h2; simp only [idRange] at h2 ⊢
          exact ⟨h2.1, h2.2.1, Int.lt_of_lt_of_le h2.2.2 (by omega)⟩
      · subst he
        refine ⟨i, rfl, ?_⟩
        have := hrange.1
        have ce : ∀ b, x.count b = ({ s.node 0 with ents := (s.node 0).ents ++ [⟨w, r, some i, false⟩] } : NodeSt).count b := by
          intro b; unfold NodeSt.count; rw [hents]
        cases hw : w with
        | brk n => rw [hw] at this; simp only [idRange] at this ⊢; rw [ce, hw]; exact this
        | fed n => rw [hw] at this; simp only [idRange] at this ⊢; rw [ce, hw]; exact this
    · intro e e' j he he' hj hj'
      rw [hents] at he he'
      rcases mem_snoc.1 he with he | he <;> rcases mem_snoc.1 he' with he' | he'
      · exact I.uniq e e' j he he' hj hj'
      · subst he'; rw [← hj'] at hj; exact absurd hj (hold e he)
      · subst he; rw [← hj] at hj'; exact absurd hj' (hold e' he')
      · rw [he, he']
  · refine I.turnEnts h (by rw [hx]) w ?_ (fun h => absurd rfl h) ?_
    · intro e he
      rw [hents]
      exact mem_snoc.trans ⟨fun hh => hh.elim id (fun hx => absurd (by rw [hx]) he), .inl⟩
    · intro c hcc
      rw [hents]
      have key : ∀ e, e ∈ (s.node 0).ents ++ [(⟨w, r, some i, false⟩ : Ent)] → e.who = w → e.route = r := by
        intro e he hw
        rcases mem_snoc.1 he with he | he
        · exact absurd hw (hnew e he)
        · subst he; rfl
      refine ⟨fun ⟨e, he, h1, h2⟩ => ?_, fun ⟨e, he, h1, h2, _⟩ => ?_⟩
      · have := key e he h1; rw [h2] at this; subst this; exact hr
      · have := key e he h1; rw [h2] at this; subst this; exact ⟨ha, hn⟩

end Verif.Routes
