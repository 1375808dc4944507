import Verif.Lemmas.QueryLive
/-! Answers are not older than the question, for C57. -/
namespace Verif.Query

variable {net : Net} {i T : Nat} {s : Sys}

def GoodMap (T : Nat) (b : Builder) : Prop := ∃ t l, b.map = some (t, l) ∧ T ≤ t ∧ ∀ e ∈ l, Since T e.2

/-- a builder has nothing old in it that could get into an answer -/
def Young (T : Nat) (reuse : Bool) (ctr : Nat) (b : Builder) : Prop :=
  GoodMap T b ∨ (b.map = none ∨ b.missing = [] ∧ (reuse = true → ctr ≠ b.code))

theorem good_hold {b : Builder} (h : GoodMap T b) (k : Kind) (u : Node) : GoodMap T (b.hold k u).1 := by
  unfold Builder.hold
  simp only
  split <;> exact h

theorem good_add {b : Builder} (h : GoodMap T b) {a : Ans} (ha : Since T a) (n : Nat) : GoodMap T (b.add a n).1 := by
  obtain ⟨t, l, hm, ht, hl⟩ := h
  unfold Builder.add
  split
  · exact ⟨t, l, hm, ht, hl⟩
  · refine ⟨t, _, by simp only [hm, Option.map_some]; rfl, ht, ?_⟩
    intro e he
    rcases List.mem_append.1 he with he | he
    · exact hl e he
    · rw [List.mem_singleton.1 he]; exact ha

theorem good_fold (f : Builder × List Out → Node → Builder × List Out) (hf : ∀ p u, GoodMap T p.1 → GoodMap T (f p u).1)
    (l : List Node) (p : Builder × List Out) (h : GoodMap T p.1) : GoodMap T (l.foldl f p).1 := by
  induction l generalizing p with
  | nil => exact h
  | cons u l ih => exact ih _ (hf p u h)

theorem good_init (conn busy : Node → Bool) {now : Nat} (v : Nat) (b : Builder) (hT : T ≤ now) : GoodMap T (b.init net conn busy now v i).1 := by
  have h0 : GoodMap T { b with map := some (now, []), missing := [] } := ⟨now, [], rfl, hT, fun e he => by cases he⟩
  unfold Builder.init
  simp only
  split
  · refine good_fold _ ?_ _ _ h0
    intro p u hp
    unfold brokerTurn
    split
    · exact good_hold hp _ _
    · exact hp
  · refine good_fold _ ?_ _ _ h0
    intro p u hp
    unfold coreTurn
    simp only
    split
    · exact good_hold hp _ _
    · exact good_add (good_hold hp _ _) (.doc u i now [] hT (fun e he => by cases he)) _

theorem good_gen {b : Builder} (h : GoodMap T b) (v : Nat) : Since T (b.gen v i) := by
  obtain ⟨t, l, hm, ht, hl⟩ := h
  unfold Builder.gen
  rw [hm]
  exact .doc v i t l ht hl

theorem young_query (conn busy : Node → Bool) {now : Nat} (v ctr : Nat) {b : Builder} (hT : T ≤ now) (h : Young T (net.reuse i) ctr b) :
    Young T (net.reuse i) ctr (b.query net conn busy now v i ctr).1 ∧
    ((b.query net conn busy now v i ctr).2.2.isWait = false → Since T (b.query net conn busy now v i ctr).2.2) := by
  have hfresh : ∀ b : Builder, ∀ o : Builder × List Out × Ans,
      o = (let r := b.init net conn busy now v i
           if r.1.completed then
             let b2 := if net.reuse i then { r.1 with code := ctr } else r.1
             (b2, r.2, b2.gen v i)
           else (r.1, r.2, .wait)) →
      Young T (net.reuse i) ctr o.1 ∧ (o.2.2.isWait = false → Since T o.2.2) := by
    intro b o ho
    have hg := good_init (net := net) (i := i) conn busy v b hT
    simp only at ho
    split at ho
    · have hg2 : GoodMap T (if net.reuse i then { (b.init net conn busy now v i).1 with code := ctr } else (b.init net conn busy now v i).1) := by
        split <;> exact hg
      rw [ho]
      exact ⟨.inl hg2, fun _ => good_gen hg2 v⟩
    · rw [ho]
      exact ⟨.inl hg, fun e => by cases e⟩
  unfold Builder.query
  simp only
  split
  · rename_i hre
    split
    · rename_i hcm
      split
      · rename_i hct
        refine ⟨h, fun _ => ?_⟩
        rcases h with h | h | h
        · exact good_gen h v
        · unfold Builder.completed at hcm; rw [h] at hcm; cases hcm
        · exact absurd hct (h.2 hre)
      · exact hfresh b.reset _ (by simp only [hre, if_true])
    · split
      · exact ⟨h, fun e => by cases e⟩
      · exact hfresh b _ (by simp only [hre, if_true])
  · rename_i hre
    exact hfresh b _ (by simp only [hre]; rfl)

/-- everything about the query `i` since `T`, and the answers to the queries from number `Q` on -/
structure Fresh (net : Net) (i T Q : Nat) (s : Sys) : Prop where
  now : T ≤ s.now
  slots : ∀ v, Young T (net.reuse i) (s.node v).ctr ((s.node v).slot i).b
  msgs : ∀ v n a, Msg.rep v i n a ∈ s.flight → Since T a
  right : ∀ q v a, Q ≤ q → s.asked[q]? = some (v, i) → (q, a) ∈ s.answers → Since T a

theorem fresh_put {Q : Nat} (hI : Inv net i s) (h : Fresh net i T Q s) {v : Node} (r : NSt × List Out) (fl : List Msg) (asked' : List (Nat × Nat))
    (hx : Young T (net.reuse i) r.1.ctr (r.1.slot i).b) (hsub : ∀ m ∈ fl, m ∈ s.flight)
    (hask : asked' = s.asked ∨ ∃ p, asked' = s.asked ++ [p])
    (hup : ∀ n a, Out.up i n a ∈ r.2 → Since T a)
    (huser : ∀ q w a, Out.user q a ∈ r.2 → asked'[q]? = some (w, i) → Since T a) :
    Fresh net i T Q ({ s with flight := fl, asked := asked' }.put net v r) where
  now := Nat.le_succ_of_le h.now
  slots := by
    intro w
    unfold Sys.put
    simp only
    by_cases hw : w = v
    · subst hw; rw [upd_same]; exact hx
    · rw [upd_ne _ _ hw]; exact h.slots w
  msgs := by
    intro w n a hm
    unfold Sys.put at hm
    simp only at hm
    rcases List.mem_append.1 hm with hm | hm
    · exact h.msgs w n a (hsub _ hm)
    · rw [List.mem_flatMap] at hm
      obtain ⟨o, ho, hm⟩ := hm
      cases o with
      | down u j m => have := List.mem_singleton.1 hm; cases this
      | user q b => cases hm
      | up j m b =>
        have := List.mem_singleton.1 hm
        injection this with _ h2 h3 h4
        subst h2; subst h3; subst h4
        exact hup _ _ ho
  right := by
    intro q w a hQ hq ha
    unfold Sys.put at hq ha
    simp only at hq ha
    rcases List.mem_append.1 ha with ha | ha
    · have hlt := hI.past q a ha
      refine h.right q w a hQ ?_ ha
      rcases hask with e | ⟨p, e⟩
      · rw [e] at hq; exact hq
      · rw [e, List.getElem?_append_left hlt] at hq; exact hq
    · rw [List.mem_flatMap] at ha
      obtain ⟨o, ho, hm⟩ := ha
      cases o with
      | down u j m => cases hm
      | up j m b => cases hm
      | user q' b =>
        have := List.mem_singleton.1 hm
        injection this with h1 h2
        subst h1; subst h2
        exact huser _ _ _ ho hq

theorem fresh_foreign {Q : Nat} (hI : Inv net i s) (h : Fresh net i T Q s) {v j : Nat} (hj : j ≠ i) (r : NSt × List Out) (fl : List Msg)
    (asked' : List (Nat × Nat)) (hslot : r.1.slot i = (s.node v).slot i) (hctr : r.1.ctr = (s.node v).ctr) (hsub : ∀ m ∈ fl, m ∈ s.flight)
    (hask : asked' = s.asked ∨ ∃ p, asked' = s.asked ++ [p])
    (ho : ∀ o ∈ r.2, (∃ u n, o = Out.down u j n) ∨ (∃ n a, o = Out.up j n a) ∨ ∃ q a, o = Out.user q a ∧ asked'[q]? = some (v, j)) :
    Fresh net i T Q ({ s with flight := fl, asked := asked' }.put net v r) := by
  refine fresh_put hI h r fl asked' (by rw [hslot, hctr]; exact h.slots v) hsub hask ?_ ?_
  · intro n a hm
    rcases ho _ hm with ⟨u, n', e⟩ | ⟨n', b, e⟩ | ⟨q, b, e, _⟩
    · cases e
    · injection e with e; exact absurd e.symm hj
    · cases e
  · intro q w a hm hq
    rcases ho _ hm with ⟨u, n', e⟩ | ⟨n', b, e⟩ | ⟨q', b, e, h2⟩
    · cases e
    · cases e
    · injection e with e1 e2
      subst e1
      rw [h2] at hq
      injection hq with hq
      injection hq with _ hq
      exact absurd hq hj

theorem onReq_ctr (busy : Node → Bool) (now v j : Nat) (d : Dest) (x : NSt) : (x.onReq net busy now v j d).1.ctr = x.ctr := by
  unfold NSt.onReq; simp only; split <;> rfl

theorem onNamed_ctr (busy : Node → Bool) (now v j q : Nat) (x : NSt) : (x.onNamed net busy now v j q).1.ctr = x.ctr := rfl

theorem onRep_ctr (v j n : Nat) (a : Ans) (x : NSt) : (x.onRep net v j n a).1.ctr = x.ctr := by
  unfold NSt.onRep; simp only; split <;> rfl

theorem onReq_young (busy : Node → Bool) {now : Nat} (v : Nat) (d : Dest) {x : NSt} (hT : T ≤ now) (h : Young T (net.reuse i) x.ctr (x.slot i).b) :
    Young T (net.reuse i) x.ctr ((x.onReq net busy now v i d).1.slot i).b ∧
    ∀ o ∈ (x.onReq net busy now v i d).2, (∃ u n, o = Out.down u i n) ∨ ∃ a, Since T a ∧ o = d.out i a := by
  have hq := query_downs (net := net) x.conn busy now v i x.ctr (x.slot i).b
  obtain ⟨h1, h2⟩ := young_query (net := net) x.conn busy v x.ctr hT h
  unfold NSt.onReq
  simp only
  split
  · exact ⟨by simp only [upd_same]; exact h1, fun o ho => .inl (hq o ho)⟩
  · rename_i hw
    refine ⟨by simp only [upd_same]; exact h1, fun o ho => ?_⟩
    rcases List.mem_append.1 ho with ho | ho
    · exact .inl (hq o ho)
    · exact .inr ⟨_, h2 (by simpa using hw), List.mem_singleton.1 ho⟩

theorem onRep_young (v n : Nat) {a : Ans} {x : NSt} (ha : Since T a) (h : Young T (net.reuse i) x.ctr (x.slot i).b)
    (hn : (x.slot i).b.map = none → (x.slot i).b.missing = []) :
    Young T (net.reuse i) x.ctr ((x.onRep net v i n a).1.slot i).b ∧
    ∀ o ∈ (x.onRep net v i n a).2, ∃ d ∈ (x.slot i).reqs, ∃ b, Since T b ∧ o = d.out i b := by
  have hnone : (x.slot i).b.missing = [] → (x.slot i).b.add a n = ((x.slot i).b, false) := by
    intro hm; unfold Builder.add; rw [hm]; rfl
  unfold NSt.onRep
  simp only
  rcases h with h | h
  · have hg := good_add h ha n
    split
    · refine ⟨?_, ?_⟩
      · simp only [upd_same]
        split
        · exact .inl hg
        · exact .inr (.inl rfl)
      · intro o ho
        obtain ⟨d, hd, e⟩ := replies_mem ho
        exact ⟨d, hd, _, good_gen hg v, e⟩
    · exact ⟨by simp only [upd_same]; exact .inl hg, fun o ho => by cases ho⟩
  · have hm : (x.slot i).b.missing = [] := by
      rcases h with h | h
      · exact hn h
      · exact h.1
    rw [hnone hm]
    simp only [Bool.false_eq_true, if_false]
    exact ⟨by simp only [upd_same]; exact .inr h, fun o ho => by cases ho⟩

theorem fresh_step {Q : Nat} (hI : Inv net i s) (h : Fresh net i T Q s) {e : Ev} (he : EvOk net i e)
    (hc : net.reuse i = true → ∀ v n, e ≠ .count v n) : Fresh net i T Q (s.step net e) := by
  cases e with
  | ask v j =>
    have hself : ({ s with asked := s.asked ++ [(v, j)] } : Sys) = { s with flight := s.flight, asked := s.asked ++ [(v, j)] } := rfl
    unfold Sys.step
    simp only
    rw [hself]
    have hnew : (s.asked ++ [(v, j)])[s.asked.length]? = some (v, j) := by simp
    by_cases hj : j = i
    · subst hj
      obtain ⟨h1, h2⟩ := onReq_young (net := net) s.busy v (.user s.asked.length) h.now (h.slots v)
      refine fresh_put hI h _ _ _ (by rw [onReq_ctr]; exact h1) (fun m hm => hm) (.inr ⟨_, rfl⟩) ?_ ?_
      · intro n a ho
        rcases h2 _ ho with ⟨u, m, e⟩ | ⟨b, _, e⟩ <;> cases e
      · intro q w a ho _
        rcases h2 _ ho with ⟨u, m, e⟩ | ⟨b, hb, e⟩
        · cases e
        · injection e with _ e; rw [e]; exact hb
    · obtain ⟨h1, h2, h3, h4⟩ := onReq_outs (net := net) s.busy s.now v j (.user s.asked.length) (s.node v)
      refine fresh_foreign hI h hj _ _ _ (h2 i (fun e => hj e.symm)) (onReq_ctr ..) (fun m hm => hm) (.inr ⟨_, rfl⟩) ?_
      intro o ho
      rcases h1 o ho with h | ⟨a, h⟩
      · exact .inl h
      · exact .inr (.inr ⟨_, a, h, hnew⟩)
  | named v j =>
    have hself : ({ s with asked := s.asked ++ [(v, j)] } : Sys) = { s with flight := s.flight, asked := s.asked ++ [(v, j)] } := rfl
    unfold Sys.step
    simp only
    rw [hself]
    obtain ⟨h1, h2, h3, h4⟩ := onNamed_outs (net := net) s.busy s.now v j s.asked.length (s.node v)
    have hnew : (s.asked ++ [(v, j)])[s.asked.length]? = some (v, j) := by simp
    refine fresh_foreign hI h he _ _ _ (h2 i (fun e => he e.symm)) (onNamed_ctr ..) (fun m hm => hm) (.inr ⟨_, rfl⟩) ?_
    intro o ho
    rcases h1 o ho with h | ⟨a, h⟩
    · exact .inl h
    · exact .inr (.inr ⟨_, a, h, hnew⟩)
  | take k =>
    unfold Sys.step
    simp only
    split
    · exact h
    · rename_i m hm
      have hmem : m ∈ s.flight := List.mem_of_getElem? hm
      have hsub : ∀ m' ∈ s.flight.eraseIdx k, m' ∈ s.flight := fun m' h => List.mem_of_mem_eraseIdx h
      have hself : ({ s with flight := s.flight.eraseIdx k } : Sys) = { s with flight := s.flight.eraseIdx k, asked := s.asked } := rfl
      cases m with
      | req u j n =>
        unfold Sys.arrive
        simp only
        by_cases hf : net.kind u = .fed
        · rw [if_pos hf, hself]
          refine fresh_put hI h _ _ _ (h.slots u) hsub (.inl rfl) ?_ ?_
          · intro n' a ho
            have := List.mem_singleton.1 ho
            injection this with _ _ e
            rw [e]
            exact .doc _ _ _ _ h.now (fun e he => by cases he)
          · intro q w a ho
            have := List.mem_singleton.1 ho
            cases this
        · rw [if_neg hf, hself]
          by_cases hj : j = i
          · subst hj
            obtain ⟨h1, h2⟩ := onReq_young (net := net) s.busy u (.up n) h.now (h.slots u)
            refine fresh_put hI h _ _ _ (by rw [onReq_ctr]; exact h1) hsub (.inl rfl) ?_ ?_
            · intro n' a ho
              rcases h2 _ ho with ⟨u, m, e⟩ | ⟨b, hb, e⟩
              · cases e
              · injection e with _ _ e; rw [e]; exact hb
            · intro q w a ho _
              rcases h2 _ ho with ⟨u, m, e⟩ | ⟨b, hb, e⟩ <;> cases e
          · obtain ⟨h1, h2, h3, h4⟩ := onReq_outs (net := net) s.busy s.now u j (.up n) (s.node u)
            refine fresh_foreign hI h hj _ _ _ (h2 i (fun e => hj e.symm)) (onReq_ctr ..) hsub (.inl rfl) ?_
            intro o ho
            rcases h1 o ho with h | ⟨a, h⟩
            · exact .inl h
            · exact .inr (.inl ⟨n, a, h⟩)
      | rep v j n a =>
        unfold Sys.arrive
        simp only
        rw [hself]
        by_cases hj : j = i
        · subst hj
          obtain ⟨h1, h2⟩ := onRep_young (net := net) v n (h.msgs v n a hmem) (h.slots v) (hI.slots v).none
          refine fresh_put hI h _ _ _ (by rw [onRep_ctr]; exact h1) hsub (.inl rfl) ?_ ?_
          · intro n' a' ho
            obtain ⟨d, _, b, hb, e⟩ := h2 _ ho
            cases d with
            | user q => cases e
            | up m => injection e with _ _ e; rw [e]; exact hb
          · intro q w a' ho _
            obtain ⟨d, _, b, hb, e⟩ := h2 _ ho
            cases d with
            | up m => cases e
            | user q' => injection e with _ e; rw [e]; exact hb
        · obtain ⟨h1, h2, h3, h4⟩ := onRep_outs (net := net) v j n a (s.node v)
          refine fresh_foreign hI h hj _ _ _ (h2 i (fun e => hj e.symm)) (onRep_ctr ..) hsub (.inl rfl) ?_
          intro o ho
          obtain ⟨d, hd, a', h⟩ := h1 o ho
          cases d with
          | up m => exact .inr (.inl ⟨m, a', h⟩)
          | user q => exact .inr (.inr ⟨q, a', h, hI.who v j q hd⟩)
  | lock f b => exact ⟨h.now, h.slots, h.msgs, h.right⟩
  | count v n =>
    refine ⟨h.now, ?_, h.msgs, h.right⟩
    have hre : net.reuse i = false := by
      cases hr : net.reuse i with
      | false => rfl
      | true => exact absurd rfl (hc hr v n)
    intro w
    have := h.slots w
    unfold Sys.step
    simp only
    by_cases hw : w = v
    · subst hw
      rw [upd_same]
      rcases this with h | h | h
      · exact .inl h
      · exact .inr (.inl h)
      · exact .inr (.inr ⟨h.1, fun e => by rw [hre] at e; cases e⟩)
    · rw [upd_ne _ _ hw]; exact this
  | drop v u => exact he.elim
  | err v u => exact he.elim

theorem fresh_run (hok : net.Ok) {Q : Nat} {es : List Ev} (hI : Inv net i s) (h : Fresh net i T Q s) (he : ∀ e ∈ es, EvOk net i e)
    (hc : net.reuse i = true → ∀ v n, Ev.count v n ∉ es) : Fresh net i T Q (s.run net es) := by
  unfold Sys.run
  induction es generalizing s with
  | nil => exact h
  | cons e es ih =>
    simp only [List.foldl_cons]
    exact ih (step_inv hok hI (he e (List.mem_cons_self ..)))
      (fresh_step hI h (he e (List.mem_cons_self ..)) (fun hr v n e' => hc hr v n (by rw [e']; exact List.mem_cons_self ..)))
      (fun e' he' => he e' (List.mem_cons_of_mem _ he')) (fun hr v n hm => hc hr v n (List.mem_cons_of_mem _ hm))

/-- when no message is on its way nothing old is in use -/
theorem fresh_start (hok : net.Ok) (hI : Inv net i s) (hq : Quiet s i) (hk : net.reuse i = true → ∀ v, ¬ Usable s v i) :
    Fresh net i s.now s.asked.length s where
  now := Nat.le_refl _
  slots := by
    intro v
    cases hm : ((s.node v).slot i).b.map with
    | none => exact .inr (.inl hm)
    | some t =>
      have hd := quiet_done hok hI hq net.size v (by omega)
      refine .inr (.inr ⟨hd, fun hr e => hk hr v ⟨?_, e⟩⟩)
      unfold Keeps Builder.completed
      rw [hm, hd]; rfl
  msgs := fun v n a hm => absurd rfl (hq _ hm)
  right := fun q v a hQ _ ha => by have := hI.past q a ha; omega

end Verif.Query
