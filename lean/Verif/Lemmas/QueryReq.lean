import Verif.Lemmas.QueryStep
/-! Requests keep the invariant, for C57. -/
namespace Verif.Query

variable {net : Net} {i : Nat} {s : Sys}

@[simp] theorem upd_same {α : Type} (f : Nat → α) (k : Nat) (x : α) : upd f k x k = x := by simp [upd]

theorem upd_ne {α : Type} (f : Nat → α) {k j : Nat} (x : α) (h : j ≠ k) : upd f k x j = f j := by simp [upd, h]

/-- what a request does to a slot -/
structure ReqSpec (net : Net) (busy : Node → Bool) (v i : Nat) (d : Dest) (x : NSt) (r : NSt × List Out) : Prop where
  ex : ∃ sl' ds os, r = ({ x with slot := upd x.slot i sl' }, ds ++ os) ∧ SlotOk net i v sl' ∧
    ((ds = [] ∧ sl'.b.gaps = (x.slot i).b.gaps) ∨
     (ds = downs net busy v i ∧ sl'.b.gaps = layout net busy v ∧ (net.reuse i = true → (x.slot i).b.missing = []))) ∧
    ((∃ a, os = [d.out i a] ∧ Lists net i v a ∧ sl'.reqs = (x.slot i).reqs) ∨ (os = [] ∧ sl'.reqs = (x.slot i).reqs ++ [d]))

theorem gaps_nil {b : Builder} : b.gaps = [] ↔ b.missing = [] := by
  unfold Builder.gaps; exact List.map_eq_nil_iff

theorem layout_nil {busy : Node → Bool} {v : Node} : layout net busy v = [] ↔ asks net busy v = [] := by
  unfold layout
  cases h : asks net busy v <;> simp [number]

theorem onReq_spec (hok : net.Ok) {v : Node} (hf : net.kind v ≠ .fed) (busy : Node → Bool) (now : Nat) {x : NSt} (hc : ∀ u, x.conn u = true)
    (h : SlotOk net i v (x.slot i)) (hg : net.reuse i = false → ∀ n u, (n, u) ∈ (x.slot i).b.gaps → (n, u) ∈ layout net busy v)
    (d : Dest) (hu : ∀ q, d = .user q → net.kind v = .broker) (hup : ∀ n, d = .up n → v ∈ net.kids (net.par v)) :
    ReqSpec net busy v i d x (x.onReq net busy now v i d) := by
  constructor
  have hreqU : ∀ q, Dest.user q ∈ (x.slot i).reqs ++ [d] → net.kind v = .broker := by
    intro q hq
    rcases List.mem_append.1 hq with hq | hq
    · exact h.user q hq
    · exact hu q (List.mem_singleton.1 hq).symm
  have hreqP : ∀ n, Dest.up n ∈ (x.slot i).reqs ++ [d] → v ∈ net.kids (net.par v) := by
    intro q hq
    rcases List.mem_append.1 hq with hq | hq
    · exact (h.up q hq).1
    · exact hup q (List.mem_singleton.1 hq).symm
  unfold NSt.onReq
  simp only
  rcases query_cases hok hf x.conn busy hc now x.ctr h with ⟨a, he, hcase⟩ | ⟨a, c, hr, he, hcase⟩
  · rw [he]
    simp only
    rcases hcase with ⟨hm, hmap, rfl⟩ | ⟨hm, rfl⟩
    · have hl := gen_lists h hm hmap
      rw [if_neg (by rw [hl.notWait]; simp)]
      exact ⟨_, [], _, rfl, h, .inl ⟨rfl, rfl⟩, .inl ⟨_, rfl, hl, rfl⟩⟩
    · rw [if_pos (show Ans.wait.isWait = true from rfl)]
      refine ⟨_, [], [], rfl, ?_, .inl ⟨rfl, rfl⟩, .inr ⟨rfl, rfl⟩⟩
      exact { none := h.none, some := h.some, kind := h.kind, keys := h.keys,
              wait := by
                constructor
                · intro e; simp at e
                · intro e; exact absurd e hm
              user := hreqU, up := fun n hn => ⟨hreqP n hn, hf⟩, good := h.good }
  · rw [he]
    simp only
    have hgap : Builder.gaps { round net busy now v i (x.slot i).b with code := c } = layout net busy v := round_gaps (net := net) busy now v i (x.slot i).b
    rcases hcase with ⟨ha, rfl⟩ | ⟨ha, rfl⟩
    · have hmis : (x.slot i).b.missing = [] := by
        cases hre : net.reuse i with
        | true => exact hr hre
        | false =>
          rw [← gaps_nil, List.eq_nil_iff_forall_not_mem]
          intro p hp
          have := hg hre p.1 p.2 hp
          rw [layout_nil.2 ha] at this
          cases this
      have hreq := h.wait.2 hmis
      have hk := round_ok (x := x.slot i) hok hf h busy now c (x.slot i).reqs (by rw [hreq, ha]; simp) h.user (fun n hn => (h.up n hn).1)
      have hl := gen_lists hk (by simp only [round]; rw [ha]; rfl) (by simp [round])
      have hl' : Lists net i v ((round net busy now v i (x.slot i).b).gen v i) := hl
      rw [if_neg (by rw [hl'.notWait]; simp)]
      exact ⟨_, _, _, rfl, hk, .inr ⟨rfl, hgap, hr⟩, .inl ⟨_, rfl, hl', rfl⟩⟩
    · rw [if_pos (show Ans.wait.isWait = true from rfl)]
      have hk := round_ok (x := x.slot i) hok hf h busy now c ((x.slot i).reqs ++ [d]) (by simp [ha]) hreqU hreqP
      exact ⟨_, _, [], by rw [List.append_nil], hk, .inr ⟨rfl, hgap, hr⟩, .inr ⟨rfl, rfl⟩⟩

/-- the place holder a requester stands for -/
def dtok (net : Net) (v : Node) (d : Dest) (w n u : Nat) : Nat :=
  match d with
  | .user _ => 0
  | .up m => if u = v ∧ net.par v = w ∧ n = m then 1 else 0

theorem held_append (v : Node) (l : List Dest) (d : Dest) (w n : Nat) : held net w n v (l ++ [d]) = held net w n v l + dtok net v d w n v := by
  unfold held dtok
  cases d with
  | user q =>
    simp [List.count_append, List.count_cons]
  | up m =>
    simp only [List.count_append, List.count_cons, List.count_nil]
    by_cases hw : net.par v = w
    · by_cases hn : n = m
      · simp [hw, hn]
      · have : m ≠ n := fun e => hn e.symm
        simp [hw, hn, this]
    · simp [hw]

theorem dtok_ne (v : Node) (d : Dest) (w n u : Nat) (h : u ≠ v) : dtok net v d w n u = 0 := by
  unfold dtok; cases d <;> simp [h]

theorem cnt_out (v : Node) (d : Dest) {a : Ans} (ha : Lists net i v a) (w n u : Nat) :
    cnt net i w n u ((d.out i a).msg (net.par v)) = dtok net v d w n u := by
  cases d with
  | user q => rfl
  | up m => exact cnt_up v (net.par v) a ha.src rfl m w n u

theorem msgs_downs (busy : Node → Bool) (v i p : Nat) : (downs net busy v i).flatMap (Out.msg p) = (layout net busy v).map (fun p => Msg.req p.2 i p.1) := by
  unfold downs layout
  generalize number 2 (asks net busy v) = l
  induction l with
  | nil => rfl
  | cons a l ih => simp only [List.map_cons, List.flatMap_cons, ih]; rfl

theorem ans_downs (busy : Node → Bool) (v i : Nat) : (downs net busy v i).flatMap Out.ans = [] := by
  unfold downs
  generalize number 2 (asks net busy v) = l
  induction l with
  | nil => rfl
  | cons a l ih => simp only [List.map_cons, List.flatMap_cons, ih]; rfl

theorem asks_par {busy : Node → Bool} {v u : Node} (h : u ∈ asks net busy v) : u ∈ net.kids v ∧ net.par u = v := by
  unfold asks at h
  rw [List.mem_filter] at h
  exact ⟨h.1, (mem_kids.1 h.1).2.2⟩

/-- what happened to a slot's tokens: a new round or not -/
theorem toks_round {w0 : Node} {s s' : Sys} (hI : Inv net i s) (hb : s'.busy = s.busy) (fresh : Bool)
    (hg : ∀ w, w ≠ w0 → ((s'.node w).slot i).b.gaps = ((s.node w).slot i).b.gaps)
    (hg0 : ((s'.node w0).slot i).b.gaps = if fresh then layout net s.busy w0 else ((s.node w0).slot i).b.gaps)
    (hfr : fresh = true → net.reuse i = true → ((s.node w0).slot i).b.gaps = [])
    (ht : ∀ w n u, tok net i s' w n u = tok net i s w n u + if fresh = true ∧ w = w0 ∧ (n, u) ∈ layout net s.busy w0 then 1 else 0) :
    (net.reuse i = true → ∀ w n u, tok net i s' w n u = if (n, u) ∈ ((s'.node w).slot i).b.gaps then 1 else 0) ∧
    (net.reuse i = false → ∀ w n u, (n, u) ∈ ((s'.node w).slot i).b.gaps → 1 ≤ tok net i s' w n u) ∧
    (net.reuse i = false → ∀ w n u, 1 ≤ tok net i s' w n u → (n, u) ∈ layout net s'.busy w) ∧
    (net.reuse i = false → ∀ w n u, (n, u) ∈ ((s'.node w).slot i).b.gaps → (n, u) ∈ layout net s'.busy w) := by
  refine ⟨?_, ?_, ?_, ?_⟩
  · intro hr w n u
    rw [ht, hI.exact hr]
    by_cases hw : w = w0
    · subst hw
      cases fresh with
      | false => rw [hg0]; simp
      | true => rw [hfr rfl hr, hg0]; simp
    · rw [hg w hw]; simp [hw]
  · intro hr w n u hm
    rw [ht]
    by_cases hw : w = w0
    · subst hw
      cases fresh with
      | false =>
        rw [hg0] at hm
        have := hI.some hr w n u hm
        omega
      | true =>
        rw [hg0] at hm
        simp only [if_true] at hm
        rw [if_pos ⟨rfl, rfl, hm⟩]; omega
    · rw [hg w hw] at hm
      have := hI.some hr w n u hm
      omega
  · intro hr w n u hm
    rw [hb]
    rw [ht] at hm
    by_cases hc : fresh = true ∧ w = w0 ∧ (n, u) ∈ layout net s.busy w0
    · rw [hc.2.1]; exact hc.2.2
    · rw [if_neg hc] at hm
      exact hI.lay hr w n u hm
  · intro hr w n u hm
    rw [hb]
    by_cases hw : w = w0
    · subst hw
      rw [hg0] at hm
      cases fresh with
      | false => exact hI.gaps hr w n u hm
      | true => exact hm
    · rw [hg w hw] at hm
      exact hI.gaps hr w n u hm

theorem times_append {s : Sys} {l : List (Nat × Ans)} {q : Nat} :
    (s.answers ++ l).countP (fun p => p.1 == q) = times s q + l.countP (fun p => p.1 == q) := List.countP_append

theorem user_out (d : Dest) (i : Nat) (a : Ans) : (d.out i a).ans = match d with | .user q => [(q, a)] | .up _ => [] := by cases d <;> rfl

theorem inv_req (hok : net.Ok) (hI : Inv net i s) {v : Node} (hf : net.kind v ≠ .fed) (d : Dest) (fl : List Msg) (asked' : List (Nat × Nat))
    (hfl : ∀ w n u, cnt net i w n u fl + dtok net v d w n u = cnt net i w n u s.flight) (hsub : ∀ m ∈ fl, m ∈ s.flight)
    (hd : (∃ n, d = .up n ∧ asked' = s.asked ∧ v ∈ net.kids (net.par v)) ∨
          (d = .user s.asked.length ∧ asked' = s.asked ++ [(v, i)] ∧ net.kind v = .broker)) :
    Inv net i ({ s with flight := fl, asked := asked' }.put net v ((s.node v).onReq net s.busy s.now v i d)) := by
  have hspec := onReq_spec (i := i) hok hf s.busy s.now (hI.conn v) (hI.slots v) (fun hr n u => hI.gaps hr v n u) d
    (by
      intro q hq
      rcases hd with ⟨n, h1, _⟩ | ⟨_, _, h3⟩
      · rw [h1] at hq; cases hq
      · exact h3)
    (by
      intro q hq
      rcases hd with ⟨n, _, _, h3⟩ | ⟨h1, _⟩
      · exact h3
      · rw [h1] at hq; cases hq)
  obtain ⟨sl', ds, os, hr, hsl, hds, hos⟩ := hspec.ex
  rw [hr]
  obtain ⟨s', hs'⟩ : ∃ s', s' = ({ s with flight := fl, asked := asked' }.put net v ({ s.node v with slot := upd (s.node v).slot i sl' }, ds ++ os)) := ⟨_, rfl⟩
  rw [← hs']
  have hnode : ∀ w, w ≠ v → s'.node w = s.node w := by
    intro w hw; rw [hs']; exact upd_ne _ _ hw
  have hnv : s'.node v = { s.node v with slot := upd (s.node v).slot i sl' } := by rw [hs']; exact upd_same _ _ _
  have hslv : (s'.node v).slot i = sl' := by rw [hnv]; exact upd_same _ _ _
  have hslj : ∀ j, j ≠ i → (s'.node v).slot j = (s.node v).slot j := by intro j hj; rw [hnv]; exact upd_ne _ _ hj
  have hflight : s'.flight = fl ++ ds.flatMap (Out.msg (net.par v)) ++ os.flatMap (Out.msg (net.par v)) := by
    rw [hs']; simp only [Sys.put, List.flatMap_append, List.append_assoc]
  have hans : s'.answers = s.answers ++ os.flatMap Out.ans := by
    rw [hs']
    simp only [Sys.put, List.flatMap_append]
    rcases hds with ⟨h, _⟩ | ⟨h, _⟩ <;> rw [h]
    · rfl
    · rw [ans_downs]; rfl
  have hasked : s'.asked = asked' := by rw [hs']; rfl
  have hbusy : s'.busy = s.busy := by rw [hs']; rfl
  -- the tokens
  have hds2 : ∃ fresh : Bool, (∀ w n u, cnt net i w n u (ds.flatMap (Out.msg (net.par v))) =
      if fresh = true ∧ w = v ∧ (n, u) ∈ layout net s.busy v then 1 else 0) ∧
      sl'.b.gaps = (if fresh then layout net s.busy v else ((s.node v).slot i).b.gaps) ∧
      (fresh = true → net.reuse i = true → ((s.node v).slot i).b.gaps = []) ∧
      (∀ m ∈ ds.flatMap (Out.msg (net.par v)), MsgOk net i m) := by
    rcases hds with ⟨h, h2⟩ | ⟨h, h2, h3⟩
    · exact ⟨false, by intro w n u; rw [h]; simp [cnt], by simpa using h2, by simp, by rw [h]; intro m hm; cases hm⟩
    · refine ⟨true, ?_, by simpa using h2, fun _ hr => gaps_nil.2 (h3 hr), ?_⟩
      · intro w n u
        rw [h, msgs_downs]
        unfold layout
        rw [cnt_downs v 2 (asks net s.busy v) (fun u hu => (asks_par hu).2)]
        simp
      · intro m hm
        rw [h, msgs_downs] at hm
        obtain ⟨p, hp, rfl⟩ := List.mem_map.1 hm
        intro _
        have := asks_par (number_mem (n := p.1) (u := p.2) hp)
        rw [this.2]; exact this.1
  obtain ⟨fresh, hcd, hgaps, hfr, hmd⟩ := hds2
  have hto : ∀ w n u, cnt net i w n u fl + cnt net i w n u (os.flatMap (Out.msg (net.par v))) + held net w n u ((s'.node u).slot i).reqs =
      tok net i s w n u := by
    intro w n u
    unfold tok
    rw [← hfl w n u]
    rcases hos with ⟨a, h1, h2, h3⟩ | ⟨h1, h3⟩
    · rw [h1]
      simp only [List.flatMap_cons, List.flatMap_nil, List.append_nil]
      rw [cnt_out v d h2]
      by_cases hu : u = v
      · subst hu; rw [hslv, h3]
      · rw [hnode u hu]
    · rw [h1]
      simp only [List.flatMap_nil, cnt_nil, Nat.add_zero]
      by_cases hu : u = v
      · subst hu; rw [hslv, h3, held_append]; omega
      · rw [hnode u hu, dtok_ne v d w n u hu]; omega
  have htok : ∀ w n u, tok net i s' w n u = tok net i s w n u + if fresh = true ∧ w = v ∧ (n, u) ∈ layout net s.busy v then 1 else 0 := by
    intro w n u
    rw [← hto, ← hcd]
    unfold tok
    rw [hflight, cnt_append, cnt_append]
    omega
  have hT := toks_round (w0 := v) hI hbusy fresh (fun w hw => by rw [hnode w hw]) (by rw [hslv]; exact hgaps) hfr htok
  -- the users
  have hmono : ∀ (q : Nat) p, s.asked[q]? = Option.some p → asked'[q]? = Option.some p := by
    intro q p hq
    rcases hd with ⟨n, _, h2, _⟩ | ⟨_, h2, _⟩
    · rw [h2]; exact hq
    · rw [h2]
      have : q < s.asked.length := by
        rcases Nat.lt_or_ge q s.asked.length with h | h
        · exact h
        · rw [List.getElem?_eq_none h] at hq; cases hq
      rw [List.getElem?_append_left this]; exact hq
  have hback : ∀ (q : Nat) p, asked'[q]? = Option.some p → s.asked[q]? = Option.some p ∨ (d = .user q ∧ q = s.asked.length ∧ p = (v, i)) := by
    intro q p hq
    rcases hd with ⟨n, _, h2, _⟩ | ⟨h1, h2, _⟩
    · rw [h2] at hq; exact .inl hq
    · rw [h2] at hq
      rcases Nat.lt_trichotomy q s.asked.length with h | h | h
      · rw [List.getElem?_append_left h] at hq; exact .inl hq
      · subst h
        simp at hq
        exact .inr ⟨h1, rfl, hq.symm⟩
      · rw [List.getElem?_eq_none (by simp; omega)] at hq; cases hq
  have hdq : ∀ q, d = .user q → asked'[q]? = Option.some (v, i) ∧ q = s.asked.length := by
    intro q hq
    rcases hd with ⟨n, h1, _⟩ | ⟨h1, h2, _⟩
    · rw [h1] at hq; cases hq
    · rw [h1] at hq; cases hq
      rw [h2]; simp
  have hwho : ∀ w j q, .user q ∈ ((s'.node w).slot j).reqs → asked'[q]? = Option.some (w, j) := by
    intro w j q hq
    by_cases hw : w = v
    · subst hw
      by_cases hj : j = i
      · subst hj
        rw [hslv] at hq
        rcases hos with ⟨a, h1, h2, h3⟩ | ⟨h1, h3⟩
        · rw [h3] at hq; exact hmono q _ (hI.who w j q hq)
        · rw [h3] at hq
          rcases List.mem_append.1 hq with hq | hq
          · exact hmono q _ (hI.who w j q hq)
          · exact (hdq q (List.mem_singleton.1 hq).symm).1
      · rw [hslj j hj] at hq; exact hmono q _ (hI.who w j q hq)
    · rw [hnode w hw] at hq; exact hmono q _ (hI.who w j q hq)
  have hold_new : ∀ q, q = s.asked.length → times s q = 0 ∧ ∀ w j, ((s.node w).slot j).reqs.count (.user q) = 0 := by
    intro q hq
    constructor
    · unfold times
      rw [List.countP_eq_zero]
      intro p hp e
      have := hI.past p.1 p.2 hp
      simp at e; omega
    · intro w j
      rw [List.count_eq_zero]
      intro hm
      have := hI.who w j q hm
      rw [List.getElem?_eq_none (by omega)] at this; cases this
  refine ⟨?_, ?_, ?_, hT.1, hT.2.1, hT.2.2.1, hT.2.2.2, ?_, ?_, ?_, ?_⟩
  · intro w u
    by_cases hw : w = v
    · subst hw; rw [hnv]; exact hI.conn w u
    · rw [hnode w hw]; exact hI.conn w u
  · intro w
    by_cases hw : w = v
    · subst hw; rw [hslv]; exact hsl
    · rw [hnode w hw]; exact hI.slots w
  · intro m hm
    rw [hflight] at hm
    rcases List.mem_append.1 hm with hm | hm
    · rcases List.mem_append.1 hm with hm | hm
      · exact hI.msgs m (hsub m hm)
      · exact hmd m hm
    · rcases hos with ⟨a, h1, h2, h3⟩ | ⟨h1, h3⟩
      · rw [h1] at hm
        simp only [List.flatMap_cons, List.flatMap_nil, List.append_nil] at hm
        cases d with
        | user q => cases hm
        | up n =>
          have := List.mem_singleton.1 hm
          rw [this]
          intro _
          rcases hd with ⟨n', _, _, h⟩ | ⟨h, _⟩
          · exact ⟨v, h, h2⟩
          · cases h
      · rw [h1] at hm; cases hm
  · intro q w hq
    rw [hasked] at hq
    have htm : times s' q = times s q + (os.flatMap Out.ans).countP (fun p => p.1 == q) := by
      unfold times; rw [hans, List.countP_append]
    have hkey : (os.flatMap Out.ans).countP (fun p => p.1 == q) + sl'.reqs.count (.user q) =
        ((s.node v).slot i).reqs.count (.user q) + if d = .user q then 1 else 0 := by
      rcases hos with ⟨a, h1, h2, h3⟩ | ⟨h1, h3⟩
      · rw [h1, h3]
        simp only [List.flatMap_cons, List.flatMap_nil, List.append_nil, user_out]
        cases d with
        | up n => simp
        | user q' =>
          by_cases hqq : q' = q
          · subst hqq; simp; omega
          · simp [hqq]
      · rw [h1, h3]
        simp only [List.flatMap_nil, List.countP_nil, List.count_append, List.count_cons, List.count_nil]
        simp
    rcases hback q _ hq with hq2 | ⟨hq2, hq3, hq4⟩
    · have hne : d ≠ .user q := by
        intro e
        have := (hdq q e).2
        rw [List.getElem?_eq_none (by omega)] at hq2; cases hq2
      rw [if_neg hne] at hkey
      have ho := hI.once q w hq2
      rw [htm]
      by_cases hw : w = v
      · subst hw; rw [hslv]; omega
      · rw [hnode w hw]
        have h0 : ((s.node v).slot i).reqs.count (.user q) = 0 := by
          rw [List.count_eq_zero]
          intro hm
          have := hI.who v i q hm
          rw [this] at hq2
          exact hw (congrArg Prod.fst (Option.some.inj hq2)).symm
        omega
    · cases hq4
      rw [if_pos hq2] at hkey
      obtain ⟨h1, h2⟩ := hold_new q hq3
      rw [htm, hslv, h1]
      have := h2 v i
      omega
  · intro q w a hq ha
    rw [hasked] at hq
    rw [hans] at ha
    rcases List.mem_append.1 ha with ha | ha
    · rcases hback q _ hq with hq2 | ⟨_, hq3, _⟩
      · exact hI.right q w a hq2 ha
      · have := hI.past q a ha
        omega
    · rcases hos with ⟨a', h1, h2, h3⟩ | ⟨h1, h3⟩
      · rw [h1] at ha
        simp only [List.flatMap_cons, List.flatMap_nil, List.append_nil, user_out] at ha
        cases d with
        | up n => cases ha
        | user q' =>
          have ha := List.mem_singleton.1 ha
          cases ha
          have := (hdq q rfl).1
          rw [this] at hq
          cases hq
          exact h2
      · rw [h1] at ha; cases ha
  · intro w j q hq
    rw [hasked]
    exact hwho w j q hq
  · intro q a ha
    rw [hasked]
    rw [hans] at ha
    have hlen : s.asked.length ≤ asked'.length := by
      rcases hd with ⟨n, _, h2, _⟩ | ⟨_, h2, _⟩ <;> rw [h2] <;> simp
    rcases List.mem_append.1 ha with ha | ha
    · have := hI.past q a ha; omega
    · rcases hos with ⟨a', h1, h2, h3⟩ | ⟨h1, h3⟩
      · rw [h1] at ha
        simp only [List.flatMap_cons, List.flatMap_nil, List.append_nil, user_out] at ha
        cases d with
        | up n => cases ha
        | user q' =>
          have ha := List.mem_singleton.1 ha
          cases ha
          have := (hdq q rfl).1
          rcases Nat.lt_or_ge q asked'.length with h | h
          · exact h
          · rw [List.getElem?_eq_none h] at this; cases this
      · rw [h1] at ha; cases ha

end Verif.Query
