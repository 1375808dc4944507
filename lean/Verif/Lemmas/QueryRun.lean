import Verif.Lemmas.QueryRep
/-! All steps keep the invariant, for C57. -/
namespace Verif.Query

variable {net : Net} {i : Nat} {s : Sys}

theorem inv_other (hI : Inv net i s) {v : Node} (x' : NSt) (outs : List Out) (fl : List Msg) (asked' : List (Nat × Nat))
    (hx : x'.slot i = (s.node v).slot i) (hxc : x'.conn = (s.node v).conn)
    (hct : ∀ w n u, cnt net i w n u fl + cnt net i w n u (outs.flatMap (Out.msg (net.par v))) = cnt net i w n u s.flight)
    (hsub : ∀ m ∈ fl, m ∈ s.flight) (hmsg : ∀ m ∈ outs.flatMap (Out.msg (net.par v)), MsgOk net i m)
    (hask : asked' = s.asked ∨ ∃ j, j ≠ i ∧ asked' = s.asked ++ [(v, j)])
    (hans : ∀ q a, (q, a) ∈ outs.flatMap Out.ans → ∃ j, j ≠ i ∧ asked'[q]? = some (v, j))
    (hwho : ∀ j q, .user q ∈ (x'.slot j).reqs → asked'[q]? = some (v, j)) :
    Inv net i ({ s with flight := fl, asked := asked' }.put net v (x', outs)) := by
  obtain ⟨s', hs'⟩ : ∃ s', s' = ({ s with flight := fl, asked := asked' }.put net v (x', outs)) := ⟨_, rfl⟩
  rw [← hs']
  have hnode : ∀ w, w ≠ v → s'.node w = s.node w := by
    intro w hw; rw [hs']; exact upd_ne _ _ hw
  have hnv : s'.node v = x' := by rw [hs']; exact upd_same _ _ _
  have hslot : ∀ w, (s'.node w).slot i = (s.node w).slot i := by
    intro w
    by_cases hw : w = v
    · subst hw; rw [hnv]; exact hx
    · rw [hnode w hw]
  have htok : ∀ w n u, tok net i s' w n u = tok net i s w n u := by
    intro w n u
    unfold tok
    rw [hslot, ← hct w n u]
    have : s'.flight = fl ++ outs.flatMap (Out.msg (net.par v)) := by rw [hs']; rfl
    rw [this, cnt_append]
  have hanswers : s'.answers = s.answers ++ outs.flatMap Out.ans := by rw [hs']; rfl
  have hasked : s'.asked = asked' := by rw [hs']; rfl
  have hbusy : s'.busy = s.busy := by rw [hs']; rfl
  have hlen : s.asked.length ≤ asked'.length := by
    rcases hask with h | ⟨j, _, h⟩ <;> rw [h] <;> simp
  have hmono : ∀ (q : Nat) p, s.asked[q]? = Option.some p → asked'[q]? = Option.some p := by
    intro q p hq
    rcases hask with h | ⟨j, _, h⟩
    · rw [h]; exact hq
    · rw [h]
      have : q < s.asked.length := by
        rcases Nat.lt_or_ge q s.asked.length with h | h
        · exact h
        · rw [List.getElem?_eq_none h] at hq; cases hq
      rw [List.getElem?_append_left this]; exact hq
  have hback : ∀ (q : Nat) w, asked'[q]? = Option.some (w, i) → s.asked[q]? = Option.some (w, i) := by
    intro q w hq
    rcases hask with h | ⟨j, hj, h⟩
    · rw [h] at hq; exact hq
    · rw [h] at hq
      rcases Nat.lt_trichotomy q s.asked.length with h | h | h
      · rw [List.getElem?_append_left h] at hq; exact hq
      · subst h
        simp at hq
        exact absurd hq.2 hj
      · rw [List.getElem?_eq_none (by simp; omega)] at hq; cases hq
  refine ⟨?_, ?_, ?_, ?_, ?_, ?_, ?_, ?_, ?_, ?_, ?_⟩
  · intro w u
    by_cases hw : w = v
    · subst hw; rw [hnv, hxc]; exact hI.conn w u
    · rw [hnode w hw]; exact hI.conn w u
  · intro w; rw [hslot]; exact hI.slots w
  · intro m hm
    have : s'.flight = fl ++ outs.flatMap (Out.msg (net.par v)) := by rw [hs']; rfl
    rw [this] at hm
    rcases List.mem_append.1 hm with hm | hm
    · exact hI.msgs m (hsub m hm)
    · exact hmsg m hm
  · intro hre w n u; rw [htok, hslot]; exact hI.exact hre w n u
  · intro hre w n u; rw [htok, hslot]; exact hI.some hre w n u
  · intro hre w n u; rw [htok, hbusy]; exact hI.lay hre w n u
  · intro hre w n u; rw [hslot, hbusy]; exact hI.gaps hre w n u
  · intro q w hq
    rw [hasked] at hq
    have ho := hI.once q w (hback q w hq)
    rw [hslot]
    have : times s' q = times s q + (outs.flatMap Out.ans).countP (fun p => p.1 == q) := by
      unfold times; rw [hanswers, List.countP_append]
    rw [this]
    have h0 : (outs.flatMap Out.ans).countP (fun p => p.1 == q) = 0 := by
      rw [List.countP_eq_zero]
      intro p hp he
      simp at he
      obtain ⟨j, hj, h⟩ := hans p.1 p.2 hp
      rw [he, hq] at h
      exact hj (congrArg Prod.snd (Option.some.inj h)).symm
    omega
  · intro q w a hq ha
    rw [hasked] at hq
    rw [hanswers] at ha
    rcases List.mem_append.1 ha with ha | ha
    · exact hI.right q w a (hback q w hq) ha
    · obtain ⟨j, hj, h⟩ := hans q a ha
      rw [hq] at h
      exact absurd (congrArg Prod.snd (Option.some.inj h)).symm hj
  · intro w j q hq
    rw [hasked]
    by_cases hw : w = v
    · subst hw; rw [hnv] at hq; exact hwho j q hq
    · rw [hnode w hw] at hq; exact hmono q _ (hI.who w j q hq)
  · intro q a ha
    rw [hasked]
    rw [hanswers] at ha
    rcases List.mem_append.1 ha with ha | ha
    · have := hI.past q a ha; omega
    · obtain ⟨j, hj, h⟩ := hans q a ha
      rcases Nat.lt_or_ge q asked'.length with h2 | h2
      · exact h2
      · rw [List.getElem?_eq_none h2] at h; cases h

/-! The outputs of a node for a query, whatever its state. -/

def Downs (j : Nat) (l : List Out) : Prop := ∀ o ∈ l, ∃ u n, o = Out.down u j n

theorem fold_downs {j : Nat} (f : Builder × List Out → Node → Builder × List Out)
    (hf : ∀ st u, Downs j st.2 → Downs j (f st u).2) (ks : List Node) (st : Builder × List Out) (h : Downs j st.2) : Downs j (ks.foldl f st).2 := by
  induction ks generalizing st with
  | nil => exact h
  | cons u us ih => exact ih _ (hf st u h)

theorem downs_snoc {j : Nat} {l : List Out} (h : Downs j l) (u n : Nat) : Downs j (l ++ [.down u j n]) := by
  intro o ho
  rcases List.mem_append.1 ho with ho | ho
  · exact h o ho
  · exact ⟨u, n, List.mem_singleton.1 ho⟩

theorem init_downs (conn busy : Node → Bool) (now v j : Nat) (b : Builder) : Downs j (b.init net conn busy now v j).2 := by
  unfold Builder.init
  simp only
  split
  · refine fold_downs _ ?_ _ _ (fun o ho => by cases ho)
    intro st u h
    unfold brokerTurn
    split
    · exact downs_snoc h _ _
    · exact h
  · refine fold_downs _ ?_ _ _ (fun o ho => by cases ho)
    intro st u h
    unfold coreTurn
    simp only
    split
    · exact downs_snoc h _ _
    · exact h

theorem query_downs (conn busy : Node → Bool) (now v j ctr : Nat) (b : Builder) : Downs j (b.query net conn busy now v j ctr).2.1 := by
  have hf : ∀ (b B2 : Builder) (c : Prop) [Decidable c] (A : Ans), Downs j (if c then (B2, (b.init net conn busy now v j).2, A)
      else ((b.init net conn busy now v j).1, (b.init net conn busy now v j).2, Ans.wait)).2.1 := by
    intro b B2 c _ A
    split <;> exact init_downs conn busy now v j b
  have hn : Downs j [] := fun o ho => by cases ho
  unfold Builder.query
  simp only
  split
  · split
    · split
      · exact hn
      · exact hf b.reset _ _ _
    · split
      · exact hn
      · exact hf b _ _ _
  · exact hf b _ _ _

theorem onReq_outs (busy : Node → Bool) (now v j : Nat) (d : Dest) (x : NSt) :
    (∀ o ∈ (x.onReq net busy now v j d).2, (∃ u n, o = Out.down u j n) ∨ ∃ a, o = d.out j a) ∧
    (∀ k, k ≠ j → (x.onReq net busy now v j d).1.slot k = x.slot k) ∧ (x.onReq net busy now v j d).1.conn = x.conn ∧
    (∀ e, e ∈ ((x.onReq net busy now v j d).1.slot j).reqs → e ∈ (x.slot j).reqs ∨ e = d) := by
  unfold NSt.onReq
  simp only
  have hq := query_downs (net := net) x.conn busy now v j x.ctr (x.slot j).b
  split
  · refine ⟨fun o ho => .inl (hq o ho), fun k hk => upd_ne _ _ hk, by trivial, ?_⟩
    intro e he
    simp only [upd_same] at he
    rcases List.mem_append.1 he with he | he
    · exact .inl he
    · exact .inr (List.mem_singleton.1 he)
  · refine ⟨?_, fun k hk => upd_ne _ _ hk, by trivial, ?_⟩
    · intro o ho
      rcases List.mem_append.1 ho with ho | ho
      · exact .inl (hq o ho)
      · exact .inr ⟨_, List.mem_singleton.1 ho⟩
    · intro e he
      simp only [upd_same] at he
      exact .inl he

theorem onNamed_outs (busy : Node → Bool) (now v j q : Nat) (x : NSt) :
    (∀ o ∈ (x.onNamed net busy now v j q).2, (∃ u n, o = Out.down u j n) ∨ ∃ a, o = Out.user q a) ∧
    (∀ k, k ≠ j → (x.onNamed net busy now v j q).1.slot k = x.slot k) ∧ (x.onNamed net busy now v j q).1.conn = x.conn ∧
    (∀ e, e ∈ ((x.onNamed net busy now v j q).1.slot j).reqs → e ∈ (x.slot j).reqs) := by
  unfold NSt.onNamed
  simp only
  have hq := query_downs (net := net) x.conn busy now v j x.ctr (x.slot j).b
  refine ⟨?_, fun k hk => upd_ne _ _ hk, by trivial, ?_⟩
  · intro o ho
    rcases List.mem_append.1 ho with ho | ho
    · exact .inl (hq o ho)
    · exact .inr ⟨_, List.mem_singleton.1 ho⟩
  · intro e he
    simp only [upd_same] at he
    exact he

theorem replies_mem {k : Kind} {j : Nat} {a : Ans} {l : List Dest} {o : Out} (h : o ∈ replies k j a l) : ∃ d ∈ l, o = d.out j a := by
  induction l with
  | nil => cases h
  | cons d l ih =>
    cases l with
    | nil => exact ⟨d, List.mem_cons_self .., List.mem_singleton.1 h⟩
    | cons d2 l =>
      rw [replies.eq_def] at h
      simp only at h
      rcases List.mem_append.1 h with h | h
      · split at h
        · cases h
        · exact ⟨d, List.mem_cons_self .., List.mem_singleton.1 h⟩
      · obtain ⟨e, he, h⟩ := ih h
        exact ⟨e, List.mem_cons_of_mem _ he, h⟩

theorem onRep_outs (v j n : Nat) (a : Ans) (x : NSt) :
    (∀ o ∈ (x.onRep net v j n a).2, ∃ d ∈ (x.slot j).reqs, ∃ a', o = d.out j a') ∧
    (∀ k, k ≠ j → (x.onRep net v j n a).1.slot k = x.slot k) ∧ (x.onRep net v j n a).1.conn = x.conn ∧
    (∀ e, e ∈ ((x.onRep net v j n a).1.slot j).reqs → e ∈ (x.slot j).reqs) := by
  unfold NSt.onRep
  simp only
  split
  · refine ⟨?_, fun k hk => upd_ne _ _ hk, by trivial, ?_⟩
    · intro o ho
      obtain ⟨d, hd, h⟩ := replies_mem ho
      exact ⟨d, hd, _, h⟩
    · intro e he
      simp only [upd_same] at he
      cases he
  · refine ⟨(fun o ho => by cases ho), fun k hk => upd_ne _ _ hk, by trivial, ?_⟩
    intro e he
    simp only [upd_same] at he
    exact he

theorem asked_lt {q : Nat} {p : Nat × Nat} {l : List (Nat × Nat)} (h : l[q]? = some p) : q < l.length := by
  rcases Nat.lt_or_ge q l.length with h2 | h2
  · exact h2
  · rw [List.getElem?_eq_none h2] at h; cases h

theorem type_out {p : Node} {o : Out} {j : Nat} (ho : (∃ u n, o = Out.down u j n) ∨ (∃ n a, o = Out.up j n a) ∨ ∃ q a, o = Out.user q a) :
    ∀ m ∈ o.msg p, m.type = j := by
  intro m hm
  rcases ho with ⟨u, n, rfl⟩ | ⟨n, a, rfl⟩ | ⟨q, a, rfl⟩
  · rw [List.mem_singleton.1 hm]; rfl
  · rw [List.mem_singleton.1 hm]; rfl
  · cases hm

theorem dest_out {d : Dest} {j : Nat} {a : Ans} : (∃ u n, d.out j a = Out.down u j n) ∨ (∃ n b, d.out j a = Out.up j n b) ∨ ∃ q b, d.out j a = Out.user q b := by
  cases d with
  | user q => exact .inr (.inr ⟨q, a, rfl⟩)
  | up n => exact .inr (.inl ⟨n, a, rfl⟩)

theorem msgOk_other {m : Msg} (h : m.type ≠ i) : MsgOk net i m := by
  cases m with
  | req u j n => exact fun e => absurd e h
  | rep v j n a => exact fun e => absurd e h

/-- another query at a node -/
theorem inv_foreign (hI : Inv net i s) {v j : Nat} (hj : j ≠ i) (x' : NSt) (outs : List Out) (fl : List Msg) (asked' : List (Nat × Nat))
    (hslot : ∀ k, k ≠ j → x'.slot k = (s.node v).slot k) (hconn : x'.conn = (s.node v).conn)
    (hfl : ∀ w n u, cnt net i w n u fl = cnt net i w n u s.flight) (hsub : ∀ m ∈ fl, m ∈ s.flight)
    (hask : asked' = s.asked ∨ asked' = s.asked ++ [(v, j)])
    (ho : ∀ o ∈ outs, (∃ u n, o = Out.down u j n) ∨ (∃ n a, o = Out.up j n a) ∨ ∃ q a, o = Out.user q a ∧ asked'[q]? = some (v, j))
    (hr : ∀ q, .user q ∈ (x'.slot j).reqs → asked'[q]? = some (v, j)) :
    Inv net i ({ s with flight := fl, asked := asked' }.put net v (x', outs)) := by
  have htype : ∀ m ∈ outs.flatMap (Out.msg (net.par v)), m.type ≠ i := by
    intro m hm
    rw [List.mem_flatMap] at hm
    obtain ⟨o, hoo, hm⟩ := hm
    have : m.type = j := by
      refine type_out ?_ m hm
      rcases ho o hoo with h | h | ⟨q, a, h, _⟩
      · exact .inl h
      · exact .inr (.inl h)
      · exact .inr (.inr ⟨q, a, h⟩)
    rw [this]; exact hj
  refine inv_other hI x' outs fl asked' (hslot i (fun e => hj e.symm)) hconn ?_ hsub (fun m hm => msgOk_other (htype m hm)) ?_ ?_ ?_
  · intro w n u
    rw [cnt_other htype, hfl]; rfl
  · rcases hask with h | h
    · exact .inl h
    · exact .inr ⟨j, hj, h⟩
  · intro q a hq
    rw [List.mem_flatMap] at hq
    obtain ⟨o, hoo, hq⟩ := hq
    rcases ho o hoo with ⟨u, n, rfl⟩ | ⟨n, b, rfl⟩ | ⟨q', b, rfl, h⟩
    · cases hq
    · cases hq
    · have := List.mem_singleton.1 hq
      cases this
      exact ⟨j, hj, h⟩
  · intro k q hq
    by_cases hk : k = j
    · subst hk; exact hr q hq
    · rw [hslot k hk] at hq
      have h := hI.who v k q hq
      rcases hask with h2 | h2
      · rw [h2]; exact h
      · rw [h2, List.getElem?_append_left (asked_lt h)]; exact h

/-- events allowed for the query `i` -/
def EvOk (net : Net) (i : Nat) : Ev → Prop
  | .ask v j => j = i → net.kind v = .broker
  | .named _ j => j ≠ i
  | .take _ => True
  | .lock _ _ => net.reuse i = true
  | .count _ _ => True
  | .drop _ _ => False
  | .err _ _ => False

theorem cnt_erase {l : List Msg} {k : Nat} {m : Msg} (h : l[k]? = some m) (w n u : Nat) :
    cnt net i w n u (l.eraseIdx k) + (if tokF net i w n u m then 1 else 0) = cnt net i w n u l := by
  induction l generalizing k with
  | nil => cases h
  | cons a l ih =>
    cases k with
    | zero =>
      simp at h
      subst h
      simp only [List.eraseIdx_cons_zero]
      unfold cnt
      rw [List.countP_cons]
    | succ k =>
      simp at h
      have := ih h
      simp only [List.eraseIdx_cons_succ]
      unfold cnt at this ⊢
      rw [List.countP_cons, List.countP_cons]
      omega

theorem arrive_inv (hok : net.Ok) (hI : Inv net i s) {k : Nat} {m : Msg} (hm : s.flight[k]? = some m) :
    Inv net i ({ s with flight := s.flight.eraseIdx k }.arrive net m) := by
  have hmem : m ∈ s.flight := List.mem_of_getElem? hm
  have hsub : ∀ m' ∈ s.flight.eraseIdx k, m' ∈ s.flight := fun m' h => List.mem_of_mem_eraseIdx h
  have hce := cnt_erase (net := net) (i := i) hm
  have hself : ({ s with flight := s.flight.eraseIdx k } : Sys) = { s with flight := s.flight.eraseIdx k, asked := s.asked } := rfl
  cases m with
  | req u j n =>
    unfold Sys.arrive
    simp only
    by_cases hj : j = i
    · subst hj
      have hko := hI.msgs _ hmem rfl
      have htf : ∀ w n' u', (if tokF net j w n' u' (.req u j n) then 1 else 0) = dtok net u (.up n) w n' u' := by
        intro w n' u'
        unfold tokF dtok
        simp only
        by_cases h1 : u' = u
        · subst h1
          by_cases h2 : net.par u' = w
          · by_cases h3 : n' = n
            · simp [h2, h3]
            · have : n ≠ n' := fun e => h3 e.symm
              simp [h2, h3, this]
          · simp [h2]
        · have : u ≠ u' := fun e => h1 e.symm
          simp [h1, this]
      by_cases hf : net.kind u = .fed
      · rw [if_pos hf, hself]
        have hl := lists_fed (i := j) hok hf s.now
        refine inv_other hI (s.node u) _ _ s.asked rfl rfl ?_ hsub ?_ (.inl rfl) ?_ (fun k q hq => hI.who u k q hq)
        · intro w n' u'
          rw [← hce w n' u', htf]
          have : List.flatMap (Out.msg (net.par u)) [Out.up j n (Ans.doc u j s.now [])] = ((Dest.up n).out j (Ans.doc u j s.now [])).msg (net.par u) := by
            simp [Dest.out]
          rw [this, cnt_out u (.up n) hl]
        · intro m hm'
          have hm' : m = Msg.rep (net.par u) j n (Ans.doc u j s.now []) := by simpa [Out.msg] using hm'
          rw [hm']
          exact fun _ => ⟨u, hko, hl⟩
        · intro q a hq
          simp [Out.ans] at hq
      · rw [if_neg hf, hself]
        refine inv_req hok hI hf (.up n) _ s.asked ?_ hsub (.inl ⟨n, rfl, rfl, hko⟩)
        intro w n' u'
        rw [← hce w n' u', htf]
    · have hfl : ∀ w n' u', cnt net i w n' u' (s.flight.eraseIdx k) = cnt net i w n' u' s.flight := by
        intro w n' u'
        rw [← hce w n' u']
        simp [tokF, hj]
      by_cases hf : net.kind u = .fed
      · rw [if_pos hf, hself]
        refine inv_foreign hI hj (s.node u) _ _ s.asked (fun _ _ => rfl) rfl hfl hsub (.inl rfl) ?_ (fun q hq => hI.who u j q hq)
        intro o ho
        exact .inr (.inl ⟨n, _, List.mem_singleton.1 ho⟩)
      · rw [if_neg hf, hself]
        obtain ⟨h1, h2, h3, h4⟩ := onReq_outs (net := net) s.busy s.now u j (.up n) (s.node u)
        refine inv_foreign hI hj _ _ _ s.asked h2 h3 hfl hsub (.inl rfl) ?_ ?_
        · intro o ho
          rcases h1 o ho with h | ⟨a, h⟩
          · exact .inl h
          · exact .inr (.inl ⟨n, a, h⟩)
        · intro q hq
          rcases h4 _ hq with h | h
          · exact hI.who u j q h
          · cases h
  | rep v j n a =>
    unfold Sys.arrive
    simp only
    by_cases hj : j = i
    · subst hj
      obtain ⟨u0, hu0, hl⟩ := hI.msgs _ hmem rfl
      refine inv_rep hI _ hl ?_ hsub
      intro w n' u'
      rw [← hce w n' u']
      have : tokF net j w n' u' (.rep v j n a) = true ↔ (w = v ∧ n' = n ∧ u' = u0) := by
        simp only [tokF, hl.src, Bool.and_eq_true, beq_iff_eq, Option.some.injEq]
        constructor
        · rintro ⟨⟨⟨h1, _⟩, h3⟩, h4⟩; exact ⟨h1.symm, h3.symm, h4.symm⟩
        · rintro ⟨h1, h2, h3⟩; exact ⟨⟨⟨h1.symm, trivial⟩, h2.symm⟩, h3.symm⟩
      by_cases hc : w = v ∧ n' = n ∧ u' = u0
      · rw [if_pos hc, if_pos (this.2 hc)]
      · rw [if_neg hc, if_neg (fun h => hc (this.1 h))]
    · have hfl : ∀ w n' u', cnt net i w n' u' (s.flight.eraseIdx k) = cnt net i w n' u' s.flight := by
        intro w n' u'
        rw [← hce w n' u']
        simp [tokF, hj]
      rw [hself]
      obtain ⟨h1, h2, h3, h4⟩ := onRep_outs (net := net) v j n a (s.node v)
      refine inv_foreign hI hj _ _ _ s.asked h2 h3 hfl hsub (.inl rfl) ?_ (fun q hq => hI.who v j q (h4 _ hq))
      intro o ho
      obtain ⟨d, hd, a', h⟩ := h1 o ho
      cases d with
      | up m => exact .inr (.inl ⟨m, a', h⟩)
      | user q => exact .inr (.inr ⟨q, a', h, hI.who v j q hd⟩)

theorem step_inv (hok : net.Ok) (hI : Inv net i s) {e : Ev} (he : EvOk net i e) : Inv net i (s.step net e) := by
  cases e with
  | ask v j =>
    have hself : ({ s with asked := s.asked ++ [(v, j)] } : Sys) = { s with flight := s.flight, asked := s.asked ++ [(v, j)] } := rfl
    unfold Sys.step
    simp only
    rw [hself]
    by_cases hj : j = i
    · subst hj
      have hb : net.kind v = .broker := he rfl
      refine inv_req hok hI (by rw [hb]; intro e; cases e) (.user s.asked.length) s.flight _ ?_ (fun m hm => hm) (.inr ⟨rfl, rfl, hb⟩)
      intro w n u; rfl
    · obtain ⟨h1, h2, h3, h4⟩ := onReq_outs (net := net) s.busy s.now v j (.user s.asked.length) (s.node v)
      have hnew : (s.asked ++ [(v, j)])[s.asked.length]? = some (v, j) := by simp
      refine inv_foreign hI hj _ _ _ _ h2 h3 (fun _ _ _ => rfl) (fun m hm => hm) (.inr rfl) ?_ ?_
      · intro o ho
        rcases h1 o ho with h | ⟨a, h⟩
        · exact .inl h
        · exact .inr (.inr ⟨_, a, h, hnew⟩)
      · intro q hq
        rcases h4 _ hq with h | h
        · have := hI.who v j q h
          rw [List.getElem?_append_left (asked_lt this)]; exact this
        · cases h; exact hnew
  | named v j =>
    have hself : ({ s with asked := s.asked ++ [(v, j)] } : Sys) = { s with flight := s.flight, asked := s.asked ++ [(v, j)] } := rfl
    unfold Sys.step
    simp only
    rw [hself]
    obtain ⟨h1, h2, h3, h4⟩ := onNamed_outs (net := net) s.busy s.now v j s.asked.length (s.node v)
    have hnew : (s.asked ++ [(v, j)])[s.asked.length]? = some (v, j) := by simp
    refine inv_foreign hI he _ _ _ _ h2 h3 (fun _ _ _ => rfl) (fun m hm => hm) (.inr rfl) ?_ ?_
    · intro o ho
      rcases h1 o ho with h | ⟨a, h⟩
      · exact .inl h
      · exact .inr (.inr ⟨_, a, h, hnew⟩)
    · intro q hq
      have := hI.who v j q (h4 _ hq)
      rw [List.getElem?_append_left (asked_lt this)]; exact this
  | take k =>
    unfold Sys.step
    simp only
    split
    · exact hI
    · rename_i m hm; exact arrive_inv hok hI hm
  | lock f b =>
    have hre : net.reuse i = true := he
    exact { conn := hI.conn, slots := hI.slots, msgs := hI.msgs, exact := hI.exact,
            some := (fun h => by rw [hre] at h; cases h), lay := (fun h => by rw [hre] at h; cases h), gaps := (fun h => by rw [hre] at h; cases h),
            once := hI.once, right := hI.right, who := hI.who, past := hI.past }
  | count v n =>
    have hslot : ∀ w j, ((s.step net (.count v n)).node w).slot j = (s.node w).slot j := by
      intro w j
      unfold Sys.step
      simp only
      by_cases hw : w = v
      · subst hw; rw [upd_same]
      · rw [upd_ne _ _ hw]
    have hconn : ∀ w, ((s.step net (.count v n)).node w).conn = (s.node w).conn := by
      intro w
      unfold Sys.step
      simp only
      by_cases hw : w = v
      · subst hw; rw [upd_same]
      · rw [upd_ne _ _ hw]
    have htok : ∀ w n' u, tok net i (s.step net (.count v n)) w n' u = tok net i s w n' u := by
      intro w n' u
      unfold tok
      rw [hslot]; rfl
    exact { conn := (fun w u => by rw [hconn]; exact hI.conn w u), slots := (fun w => by rw [hslot]; exact hI.slots w), msgs := hI.msgs,
            exact := (fun h w n' u => by rw [htok, hslot]; exact hI.exact h w n' u),
            some := (fun h w n' u hm => by rw [htok]; rw [hslot] at hm; exact hI.some h w n' u hm),
            lay := (fun h w n' u hm => by rw [htok] at hm; exact hI.lay h w n' u hm),
            gaps := (fun h w n' u hm => by rw [hslot] at hm; exact hI.gaps h w n' u hm),
            once := (fun q w hq => by rw [hslot]; exact hI.once q w hq), right := hI.right,
            who := (fun w j q hq => by rw [hslot] at hq; exact hI.who w j q hq), past := hI.past }
  | drop v u => exact he.elim
  | err v u => exact he.elim

theorem start_inv (busy : Node → Bool) : Inv net i (start busy) where
  conn := fun _ _ => rfl
  slots := fun v =>
    { none := (fun _ => rfl), some := (fun t l h => by cases h), kind := (fun p hp => by cases hp), keys := List.nodup_nil, wait := by simp [start],
      user := (fun q hq => by cases hq), up := (fun q hq => by cases hq), good := rfl }
  msgs := fun m hm => by cases hm
  exact := fun _ w n u => by simp [tok, start, cnt, held, Builder.gaps]
  some := fun _ w n u hm => by cases hm
  lay := fun _ w n u hm => by simp [tok, start, cnt, held] at hm
  gaps := fun _ w n u hm => by cases hm
  once := fun q v hq => by simp [start] at hq
  right := fun q v a hq => by simp [start] at hq
  who := fun v j q hq => by cases hq
  past := fun q a ha => by cases ha

theorem steady_ev {es : List Ev} (h : Steady net i es) : ∀ e ∈ es, EvOk net i e := by
  intro e he
  cases e with
  | ask v j => intro hj; subst hj; exact (h.broker v he).2
  | named v j => intro hj; subst hj; exact h.named v he
  | take k => trivial
  | lock f b =>
    rcases h.still with h | h
    · exact h
    · exact absurd he (h f b)
  | count v n => trivial
  | drop v u => exact (h.stay v u).1 he
  | err v u => exact (h.stay v u).2 he

theorem run_inv (hok : net.Ok) {es : List Ev} (hI : Inv net i s) (h : ∀ e ∈ es, EvOk net i e) : Inv net i (s.run net es) := by
  unfold Sys.run
  induction es generalizing s with
  | nil => exact hI
  | cons e es ih =>
    simp only [List.foldl_cons]
    exact ih (step_inv hok hI (h e (List.mem_cons_self ..))) (fun e' he' => h e' (List.mem_cons_of_mem _ he'))

end Verif.Query
