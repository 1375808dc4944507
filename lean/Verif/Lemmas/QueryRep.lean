import Verif.Lemmas.QueryReq
/-! Replies keep the invariant, for C57. -/
namespace Verif.Query

variable {net : Net} {i : Nat} {s : Sys}

theorem replies_eq {k : Kind} {i : Nat} {a : Ans} {l : List Dest} (h : ∀ q, Dest.user q ∈ l → k = .broker) :
    replies k i a l = l.map (Dest.out i a) := by
  induction l with
  | nil => rfl
  | cons d l ih =>
    have ih := ih (fun q hq => h q (List.mem_cons_of_mem _ hq))
    cases l with
    | nil => rfl
    | cons d2 l =>
      cases d with
      | up n => cases k <;> (simp only [replies, ih]; rfl)
      | user q =>
        have hk := h q (List.mem_cons_self ..)
        subst hk
        simp only [replies, ih]; rfl

theorem find_key {l : List (Nat × Kind × Node)} {n : Nat} {p : Nat × Kind × Node} (h : l.find? (fun p => p.1 == n) = some p) :
    p ∈ l ∧ p.1 = n := by
  refine ⟨List.mem_of_find?_eq_some h, ?_⟩
  have := List.find?_some h
  simpa using this

theorem erase_perm {l : List (Nat × Kind × Node)} {n : Nat} {p : Nat × Kind × Node} (h : l.find? (fun p => p.1 == n) = some p) :
    l.Perm (p :: l.eraseP (fun p => p.1 == n)) := by
  induction l with
  | nil => cases h
  | cons b l ih =>
    by_cases hb : (b.1 == n) = true
    · rw [List.find?_cons_of_pos (p := fun p : Nat × Kind × Node => p.1 == n) hb] at h
      cases h
      rw [List.eraseP_cons_of_pos (p := fun p : Nat × Kind × Node => p.1 == n) hb]
    · rw [List.find?_cons_of_neg (p := fun p : Nat × Kind × Node => p.1 == n) hb] at h
      rw [List.eraseP_cons_of_neg (p := fun p : Nat × Kind × Node => p.1 == n) hb]
      exact (List.Perm.cons b (ih h)).trans (List.Perm.swap ..)

theorem key_inj {l : List (Nat × Kind × Node)} (h : (l.map (·.1)).Nodup) {p q : Nat × Kind × Node} (hp : p ∈ l) (hq : q ∈ l) (he : p.1 = q.1) :
    p = q := by
  induction l with
  | nil => cases hp
  | cons a l ih =>
    simp only [List.map_cons, List.nodup_cons] at h
    rcases List.mem_cons.1 hp with hp | hp <;> rcases List.mem_cons.1 hq with hq | hq
    · rw [hp, hq]
    · rw [hp] at he
      exact absurd (List.mem_map.2 ⟨q, hq, he.symm⟩) h.1
    · rw [hq] at he
      exact absurd (List.mem_map.2 ⟨p, hp, he⟩) h.1
    · exact ih h.2 hp hq

/-- the gaps after the place holder `n` was filled -/
theorem gaps_erase {l : List (Nat × Kind × Node)} (hk : (l.map (·.1)).Nodup) {n : Nat} {p : Nat × Kind × Node}
    (h : l.find? (fun p => p.1 == n) = some p) (m : Nat) (u : Node) :
    (m, u) ∈ (l.eraseP (fun p => p.1 == n)).map (fun p => (p.1, p.2.2)) ↔ (m, u) ∈ l.map (fun p => (p.1, p.2.2)) ∧ m ≠ n := by
  have hp := erase_perm h
  have hkey := (find_key h).2
  have hnd : ((p :: l.eraseP (fun p => p.1 == n)).map (·.1)).Nodup := (hp.map _).nodup_iff.1 hk
  rw [List.map_cons, List.nodup_cons] at hnd
  have hmem : ∀ y : Nat × Node, y ∈ l.map (fun p => (p.1, p.2.2)) ↔ y ∈ (p :: l.eraseP (fun p => p.1 == n)).map (fun p => (p.1, p.2.2)) :=
    fun y => (hp.map _).mem_iff
  rw [hmem, List.map_cons, List.mem_cons]
  constructor
  · intro hm
    refine ⟨.inr hm, ?_⟩
    intro e
    obtain ⟨y, hy, he⟩ := List.mem_map.1 hm
    have h1 := congrArg Prod.fst he
    simp only at h1
    exact hnd.1 (List.mem_map.2 ⟨y, hy, by rw [h1, e, hkey]⟩)
  · rintro ⟨hm | hm, hne⟩
    · have := congrArg Prod.fst hm
      simp only at this
      omega
    · exact hm

/-- what a reply does to a slot -/
structure RepSpec (net : Net) (v i n : Nat) (x : NSt) (r : NSt × List Out) : Prop where
  ex : ∃ sl' os, r = ({ x with slot := upd x.slot i sl' }, os) ∧ SlotOk net i v sl' ∧
    (∀ m u, (m, u) ∈ sl'.b.gaps ↔ (m, u) ∈ (x.slot i).b.gaps ∧ m ≠ n) ∧
    ((os = [] ∧ sl'.reqs = (x.slot i).reqs) ∨
     (∃ a, Lists net i v a ∧ os = (x.slot i).reqs.map (Dest.out i a) ∧ sl'.reqs = []))

theorem onRep_spec {v : Node} {n : Nat} {u0 : Node} {a : Ans} {x : NSt} (h : SlotOk net i v (x.slot i)) (ha : Lists net i u0 a)
    (hu : ∀ u, (n, u) ∈ (x.slot i).b.gaps → u = u0) :
    RepSpec net v i n x (x.onRep net v i n a) := by
  constructor
  unfold NSt.onRep
  simp only
  cases hfi : (x.slot i).b.missing.find? (fun p => p.1 == n) with
  | none =>
    have hadd : (x.slot i).b.add a n = ((x.slot i).b, false) := by unfold Builder.add; rw [hfi]
    rw [hadd]
    simp only
    refine ⟨x.slot i, [], rfl, h, ?_, .inl ⟨rfl, rfl⟩⟩
    intro m u
    constructor
    · intro hm
      refine ⟨hm, ?_⟩
      intro e
      unfold Builder.gaps at hm
      obtain ⟨y, hy, he⟩ := List.mem_map.1 hm
      rw [List.find?_eq_none] at hfi
      have h1 := congrArg Prod.fst he
      simp only at h1
      exact hfi y hy (by simp [h1, e])
    · exact fun hm => hm.1
  | some p =>
    obtain ⟨hpm, hpk⟩ := find_key hfi
    have hp0 : p.2.2 = u0 := hu p.2.2 (by unfold Builder.gaps; exact List.mem_map.2 ⟨p, hpm, by rw [← hpk]⟩)
    have hkp : p.2.1 = net.kind u0 := by rw [h.kind p hpm, hp0]
    have hperm := erase_perm hfi
    obtain ⟨m', hm'⟩ : ∃ m', m' = (x.slot i).b.missing.eraseP (fun p => p.1 == n) := ⟨_, rfl⟩
    have hmapne : (x.slot i).b.map ≠ none := by
      intro e
      have := h.none e
      rw [this] at hpm; cases hpm
    obtain ⟨t, ht⟩ : ∃ t, (x.slot i).b.map = some t := Option.ne_none_iff_exists'.1 hmapne
    have hadd : (x.slot i).b.add a n = ({ (x.slot i).b with map := some (t.1, t.2 ++ [(p.2.1, a)]), missing := m' }, m'.isEmpty) := by
      unfold Builder.add
      rw [hfi]
      simp only
      rw [← hm', ht]
      rfl
    rw [hadd]
    simp only
    have hgap : ∀ m u, (m, u) ∈ m'.map (fun p => (p.1, p.2.2)) ↔ (m, u) ∈ (x.slot i).b.gaps ∧ m ≠ n := by
      intro m u; rw [hm']; exact gaps_erase h.keys hfi m u
    rw [← hm'] at hperm
    have hsome : ∃ es : List (Node × Ans), t.2 ++ [(p.2.1, a)] = es.map (fun e => (net.kind e.1, e.2)) ∧
        (es.map (·.1) ++ m'.map (·.2.2)).Perm (net.kids v) ∧ ∀ e ∈ es, Lists net i e.1 e.2 := by
      obtain ⟨es, h1, h2, h3⟩ := h.some t.1 t.2 ht
      refine ⟨es ++ [(u0, a)], ?_, ?_, ?_⟩
      · rw [h1, List.map_append, hkp]; rfl
      · rw [List.map_append]
        simp only [List.map_cons, List.map_nil, List.append_assoc, List.singleton_append]
        refine List.Perm.trans ?_ h2
        refine List.Perm.append_left _ ?_
        have := (hperm.map (fun p : Nat × Kind × Node => p.2.2)).symm
        rw [List.map_cons, hp0] at this
        exact this
      · intro e he
        rcases List.mem_append.1 he with he | he
        · exact h3 e he
        · rw [List.mem_singleton.1 he]; exact ha
    have hmem : ∀ y, y ∈ m' → y ∈ (x.slot i).b.missing := fun y hy => hperm.mem_iff.2 (List.mem_cons_of_mem _ hy)
    have hkeys : (m'.map (·.1)).Nodup := by
      have := (hperm.map (·.1)).nodup_iff.1 h.keys
      rw [List.map_cons, List.nodup_cons] at this
      exact this.2
    have hreq : (x.slot i).reqs ≠ [] := by
      intro e
      have := h.wait.1 e
      rw [this] at hpm; cases hpm
    by_cases hemp : m' = []
    · subst hemp
      rw [if_pos (show ([] : List (Nat × Kind × Node)).isEmpty = true from rfl)]
      have hbad : ((x.slot i).bad || (x.slot i).reqs.isEmpty) = false := by
        rw [h.good]
        cases hh : (x.slot i).reqs with
        | nil => exact absurd hh hreq
        | cons a l => rfl
      have hl : Lists net i v (Builder.gen { (x.slot i).b with map := some (t.1, t.2 ++ [(p.2.1, a)]), missing := [] } v i) := by
        obtain ⟨es, h1, h2, h3⟩ := hsome
        unfold Builder.gen
        simp only
        rw [h1]
        simp only [List.map_nil, List.append_nil] at h2
        exact Lists.doc v t.1 es h2 h3
      rw [replies_eq h.user]
      refine ⟨_, _, rfl, ?_, ?_, .inr ⟨_, hl, rfl, rfl⟩⟩
      · cases hre : net.reuse i with
        | true =>
          simp only [if_true]
          exact { none := (fun e => by cases e), some := (fun t' l' e => by cases e; exact hsome), kind := (fun y hy => by cases hy), keys := List.nodup_nil,
                  wait := by simp, user := (fun q hq => by cases hq), up := (fun q hq => by cases hq), good := hbad }
        | false =>
          simp only [Builder.reset]
          exact { none := (fun e => by rfl), some := (fun t' l' e => by cases e), kind := (fun y hy => by cases hy), keys := List.nodup_nil,
                  wait := by simp, user := (fun q hq => by cases hq), up := (fun q hq => by cases hq), good := hbad }
      · intro m u
        rw [← hgap]
        cases hre : net.reuse i <;> simp [Builder.gaps, Builder.reset]
    · have : m'.isEmpty = false := by cases m' with
        | nil => exact absurd rfl hemp
        | cons a l => rfl
      rw [this]
      simp only [Bool.false_eq_true, if_false]
      refine ⟨_, _, rfl, ?_, hgap, .inl ⟨rfl, rfl⟩⟩
      exact { none := (fun e => by cases e), some := (fun t' l' e => by cases e; exact hsome), kind := (fun y hy => h.kind y (hmem y hy)), keys := hkeys,
              wait := by
                constructor
                · intro e; exact absurd e hreq
                · intro e; exact absurd e hemp
              user := h.user, up := h.up, good := h.good }

theorem cnt_replies (v : Node) {a : Ans} (ha : Lists net i v a) (l : List Dest) (w n u : Nat) :
    cnt net i w n u ((l.map (Dest.out i a)).flatMap (Out.msg (net.par v))) = if u = v then held net w n v l else 0 := by
  induction l with
  | nil => simp [cnt, held]
  | cons d l ih =>
    simp only [List.map_cons, List.flatMap_cons]
    rw [cnt_append, ih, cnt_out v d ha]
    by_cases hu : u = v
    · subst hu
      simp only [if_true]
      unfold held dtok
      cases d with
      | user q => simp
      | up m =>
        by_cases hw : net.par u = w
        · by_cases hn : n = m
          · simp [hw, hn]; omega
          · have : m ≠ n := fun e => hn e.symm
            simp [hw, hn, this]
        · simp [hw]
    · rw [dtok_ne v d w n u hu]; simp [hu]

theorem ans_replies (a : Ans) (l : List Dest) (q : Nat) :
    ((l.map (Dest.out i a)).flatMap Out.ans).countP (fun p => p.1 == q) = l.count (.user q) := by
  induction l with
  | nil => rfl
  | cons d l ih =>
    simp only [List.map_cons, List.flatMap_cons, List.countP_append, ih, user_out]
    cases d with
    | user q' =>
      by_cases h : q' = q
      · subst h; simp; omega
      · simp [h]
    | up m => simp

theorem ans_mem {a a' : Ans} {l : List Dest} {q : Nat} (h : (q, a') ∈ (l.map (Dest.out i a)).flatMap Out.ans) : a' = a ∧ .user q ∈ l := by
  rw [List.mem_flatMap] at h
  obtain ⟨o, ho, h⟩ := h
  obtain ⟨d, hd, rfl⟩ := List.mem_map.1 ho
  rw [user_out] at h
  cases d with
  | user q' => have := List.mem_singleton.1 h; cases this; exact ⟨rfl, hd⟩
  | up m => cases h

theorem inv_rep (hI : Inv net i s) {v : Node} {n0 : Nat} {u0 : Node} {a : Ans} (fl : List Msg) (ha : Lists net i u0 a)
    (hfl : ∀ w n u, cnt net i w n u fl + (if w = v ∧ n = n0 ∧ u = u0 then 1 else 0) = cnt net i w n u s.flight)
    (hsub : ∀ m ∈ fl, m ∈ s.flight) :
    Inv net i ({ s with flight := fl }.put net v ((s.node v).onRep net v i n0 a)) := by
  have htok1 : 1 ≤ tok net i s v n0 u0 := by
    unfold tok
    rw [← hfl v n0 u0]
    simp; omega
  have hkeyg : ∀ u u', (n0, u) ∈ ((s.node v).slot i).b.gaps → (n0, u') ∈ ((s.node v).slot i).b.gaps → u = u' := by
    intro u u' h1 h2
    unfold Builder.gaps at h1 h2
    obtain ⟨p, hp, he⟩ := List.mem_map.1 h1
    obtain ⟨p', hp', he'⟩ := List.mem_map.1 h2
    cases he'
    have h3 := congrArg Prod.fst he
    have h4 := congrArg Prod.snd he
    simp only at h3 h4
    have := key_inj (hI.slots v).keys hp hp' h3
    rw [← h4, this]
  have hu : ∀ u, (n0, u) ∈ ((s.node v).slot i).b.gaps → u = u0 := by
    intro u hm
    cases hre : net.reuse i with
    | true =>
      have := hI.exact hre v n0 u0
      rw [this] at htok1
      split at htok1
      · rename_i h0; exact hkeyg u u0 hm h0
      · omega
    | false => exact number_inj (hI.gaps hre v n0 u hm) (hI.lay hre v n0 u0 htok1)
  obtain ⟨sl', os, hr, hsl, hgap, hos⟩ := (onRep_spec (hI.slots v) ha hu).ex
  rw [hr]
  obtain ⟨s', hs'⟩ : ∃ s', s' = ({ s with flight := fl }.put net v ({ s.node v with slot := upd (s.node v).slot i sl' }, os)) := ⟨_, rfl⟩
  rw [← hs']
  have hnode : ∀ w, w ≠ v → s'.node w = s.node w := by
    intro w hw; rw [hs']; exact upd_ne _ _ hw
  have hnv : s'.node v = { s.node v with slot := upd (s.node v).slot i sl' } := by rw [hs']; exact upd_same _ _ _
  have hslv : (s'.node v).slot i = sl' := by rw [hnv]; exact upd_same _ _ _
  have hslj : ∀ j, j ≠ i → (s'.node v).slot j = (s.node v).slot j := by intro j hj; rw [hnv]; exact upd_ne _ _ hj
  have hflight : s'.flight = fl ++ os.flatMap (Out.msg (net.par v)) := by rw [hs']; rfl
  have hans : s'.answers = s.answers ++ os.flatMap Out.ans := by rw [hs']; rfl
  have hasked : s'.asked = s.asked := by rw [hs']; rfl
  have hbusy : s'.busy = s.busy := by rw [hs']; rfl
  have htok : ∀ w n u, tok net i s' w n u + (if w = v ∧ n = n0 ∧ u = u0 then 1 else 0) = tok net i s w n u := by
    intro w n u
    unfold tok
    rw [← hfl w n u, hflight, cnt_append]
    rcases hos with ⟨h1, h2⟩ | ⟨a', h1, h2, h3⟩
    · rw [h1]
      simp only [List.flatMap_nil, cnt_nil, Nat.add_zero]
      by_cases huv : u = v
      · subst huv; rw [hslv, h2]; omega
      · rw [hnode u huv]; omega
    · rw [h2, cnt_replies v h1]
      by_cases huv : u = v
      · subst huv
        rw [hslv, h3]
        simp only [if_true]
        have : held net w n u [] = 0 := by simp [held]
        omega
      · rw [hnode u huv]; simp only [huv, if_false]; omega
  have hgw : ∀ w, w ≠ v → ((s'.node w).slot i).b.gaps = ((s.node w).slot i).b.gaps := fun w hw => by rw [hnode w hw]
  refine ⟨?_, ?_, ?_, ?_, ?_, ?_, ?_, ?_, ?_, ?_, ?_⟩
  · intro w u
    by_cases hw : w = v
    · subst hw; rw [hnv]; exact hI.conn w u
    · rw [hnode w hw]; exact hI.conn w u
  · intro w
    by_cases hw : w = v
    · subst hw; rw [hslv]; exact hsl
    · rw [hnode w hw]; exact hI.slots w
  · intro m hm
    rw [hflight] at hm
    rcases List.mem_append.1 hm with hm | hm
    · exact hI.msgs m (hsub m hm)
    · rcases hos with ⟨h1, _⟩ | ⟨a', h1, h2, _⟩
      · rw [h1] at hm; cases hm
      · rw [h2, List.mem_flatMap] at hm
        obtain ⟨o, ho, hm⟩ := hm
        obtain ⟨d, hd, rfl⟩ := List.mem_map.1 ho
        cases d with
        | user q => cases hm
        | up n =>
          have := List.mem_singleton.1 hm
          rw [this]
          intro _
          exact ⟨v, ((hI.slots v).up n hd).1, h1⟩
  · intro hre w n u
    have h1 := htok w n u
    have h2 := hI.exact hre w n u
    by_cases hw : w = v
    · subst hw
      rw [hslv]
      by_cases hn : n = n0
      · subst hn
        have h3 : (n, u) ∉ sl'.b.gaps := fun hm => ((hgap n u).1 hm).2 rfl
        rw [if_neg h3]
        by_cases huu : u = u0
        · subst huu
          simp only [and_self, if_true] at h1
          split at h2 <;> omega
        · rw [if_neg (fun h => huu (hu u h))] at h2
          omega
      · have h3 : (n, u) ∈ sl'.b.gaps ↔ (n, u) ∈ ((s.node w).slot i).b.gaps := by
          rw [hgap]; exact ⟨fun h => h.1, fun h => ⟨h, hn⟩⟩
        rw [if_neg (fun h => hn h.2.1)] at h1
        simp only [h3]
        rw [← h2]; omega
    · rw [if_neg (fun h => hw h.1)] at h1
      rw [hgw w hw, ← h2]; omega
  · intro hre w n u hm
    have h1 := htok w n u
    by_cases hw : w = v
    · subst hw
      rw [hslv, hgap] at hm
      rw [if_neg (fun h => hm.2 h.2.1)] at h1
      have := hI.some hre w n u hm.1
      omega
    · rw [hgw w hw] at hm
      rw [if_neg (fun h => hw h.1)] at h1
      have := hI.some hre w n u hm
      omega
  · intro hre w n u hm
    rw [hbusy]
    exact hI.lay hre w n u (by have := htok w n u; omega)
  · intro hre w n u hm
    rw [hbusy]
    by_cases hw : w = v
    · subst hw
      rw [hslv, hgap] at hm
      exact hI.gaps hre w n u hm.1
    · rw [hgw w hw] at hm
      exact hI.gaps hre w n u hm
  · intro q w hq
    rw [hasked] at hq
    have ho := hI.once q w hq
    have htm : times s' q = times s q + (os.flatMap Out.ans).countP (fun p => p.1 == q) := by
      unfold times; rw [hans, List.countP_append]
    rw [htm]
    rcases hos with ⟨h1, h2⟩ | ⟨a', h1, h2, h3⟩
    · rw [h1]
      simp only [List.flatMap_nil, List.countP_nil]
      by_cases hw : w = v
      · subst hw; rw [hslv, h2]; omega
      · rw [hnode w hw]; omega
    · rw [h2, ans_replies]
      by_cases hw : w = v
      · subst hw; rw [hslv, h3]; simp; omega
      · rw [hnode w hw]
        have h0 : ((s.node v).slot i).reqs.count (.user q) = 0 := by
          rw [List.count_eq_zero]
          intro hm
          have := hI.who v i q hm
          rw [this] at hq
          exact hw (congrArg Prod.fst (Option.some.inj hq)).symm
        omega
  · intro q w b hq hb
    rw [hasked] at hq
    rw [hans] at hb
    rcases List.mem_append.1 hb with hb | hb
    · exact hI.right q w b hq hb
    · rcases hos with ⟨h1, _⟩ | ⟨a', h1, h2, _⟩
      · rw [h1] at hb; cases hb
      · rw [h2] at hb
        obtain ⟨rfl, hm⟩ := ans_mem hb
        have := hI.who v i q hm
        rw [this] at hq
        cases hq
        exact h1
  · intro w j q hq
    rw [hasked]
    by_cases hw : w = v
    · subst hw
      by_cases hj : j = i
      · subst hj
        rw [hslv] at hq
        rcases hos with ⟨_, h2⟩ | ⟨_, _, _, h3⟩
        · rw [h2] at hq; exact hI.who w j q hq
        · rw [h3] at hq; cases hq
      · rw [hslj j hj] at hq; exact hI.who w j q hq
    · rw [hnode w hw] at hq; exact hI.who w j q hq
  · intro q b hb
    rw [hasked]
    rw [hans] at hb
    rcases List.mem_append.1 hb with hb | hb
    · exact hI.past q b hb
    · rcases hos with ⟨h1, _⟩ | ⟨a', h1, h2, _⟩
      · rw [h1] at hb; cases hb
      · rw [h2] at hb
        have := hI.who v i q (ans_mem hb).2
        rcases Nat.lt_or_ge q s.asked.length with h | h
        · exact h
        · rw [List.getElem?_eq_none h] at this; cases this

end Verif.Query
