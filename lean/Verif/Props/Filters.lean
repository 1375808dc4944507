import Verif.Lemmas.FilterDrain
/-!
# C36: messages go through their filters exactly once and in order

The statements use `Props/FilterSpec.lean` only: what a chain makes of a message (`Env.outcome`), what
destination filters make of it (`Env.destRecv`, `Env.destHand`), and which filters the code handles
(`Env.Good`).  Events happen in any order and number: messages are sent, requests reach the filters of other
cores, answers come back (in any order), messages arrive, federates ask for time.
-/
namespace Verif.Filt

/-! ## Exactly once -/

/-- **never twice and never something else**: what was sent on and what endpoints received is part of what
the filters make of the messages sent and arrived so far -/
theorem filtered_never_more {y : Sys} (h0 : y.Fresh) (hE : y.env.Good) (es : List Ev)
    (ho : ∀ e ∈ es, y.env.EvOk e) :
    (∃ rest, ((y.run es).handed.map (fun c => (c.msg, c.dst)) ++ rest).Perm (es.flatMap y.env.toHand)) ∧
    ∃ rest, ((y.run es).received ++ rest).Perm (es.flatMap y.env.toRecv) :=
  ⟨⟨_, (inv_run h0 hE es ho).hand⟩, ⟨_, (inv_run h0 hE es ho).recv⟩⟩

/-- **every message exactly once**: when no request or answer is under way, the messages sent on and
received are exactly what the filters make of the messages sent and arrived -/
theorem filtered_exactly_once {y : Sys} (h0 : y.Fresh) (hE : y.env.Good) (es : List Ev)
    (ho : ∀ e ∈ es, y.env.EvOk e) (hw : (y.run es).wire = []) :
    ((y.run es).handed.map (fun c => (c.msg, c.dst))).Perm (es.flatMap y.env.toHand) ∧
    (y.run es).received.Perm (es.flatMap y.env.toRecv) := by
  have h := inv_run h0 hE es ho
  have a := h.hand
  have b := h.recv
  rw [hw, List.flatMap_nil, List.append_nil] at a b
  exact ⟨a, b⟩

/-- **no message is lost on the way**: however the requests and answers under way are delivered, there is a
bound on the number of deliveries, so that eventually nothing is under way -/
theorem filtering_ends {y : Sys} (h0 : y.Fresh) (hE : y.env.Good) (es : List Ev) (ho : ∀ e ∈ es, y.env.EvOk e) :
    ∃ bound : Nat, ∀ pick : List Cmd → Nat, (∀ l, l ≠ [] → pick l < l.length) →
      ∃ ds : List Ev, ds.length ≤ bound ∧ (∀ d ∈ ds, (∃ j, d = .home j) ∨ ∃ j, d = .back j) ∧
        (y.run (es ++ ds)).wire = [] ∧
        ∀ pre d post, ds = pre ++ d :: post →
          d = (y.run (es ++ pre)).delivery (pick (y.run (es ++ pre)).wire) := by
  refine ⟨y.env.costs (y.run es).wire, fun pick hp => ?_⟩
  have hgen : ∀ (n : Nat) (es : List Ev), (∀ e ∈ es, y.env.EvOk e) → y.env.costs (y.run es).wire ≤ n →
      ∃ ds : List Ev, ds.length ≤ n ∧ (∀ d ∈ ds, (∃ j, d = .home j) ∨ ∃ j, d = .back j) ∧
        (y.run (es ++ ds)).wire = [] ∧
        ∀ pre d post, ds = pre ++ d :: post →
          d = (y.run (es ++ pre)).delivery (pick (y.run (es ++ pre)).wire) := by
    intro n
    induction n with
    | zero =>
      intro es ho hc
      have h := inv_run h0 hE es ho
      refine ⟨[], by simp, by simp, ?_, by simp⟩
      rw [List.append_nil]
      cases hw : (y.run es).wire with
      | nil => rfl
      | cons c l =>
        have := delivery_cost hE h (j := 0) (by rw [hw]; simp)
        omega
    | succ n ih =>
      intro es ho hc
      have h := inv_run h0 hE es ho
      by_cases hw : (y.run es).wire = []
      · exact ⟨[], by simp, by simp, by rw [List.append_nil]; exact hw, by simp⟩
      · have hd := delivery_cost hE h (hp _ hw)
        have hdk : (∃ j, (y.run es).delivery (pick (y.run es).wire) = .home j) ∨
            ∃ j, (y.run es).delivery (pick (y.run es).wire) = .back j := by
          unfold Sys.delivery
          split
          · split
            · exact .inl ⟨_, rfl⟩
            · exact .inr ⟨_, rfl⟩
          · exact .inr ⟨_, rfl⟩
        have hdo : y.env.EvOk ((y.run es).delivery (pick (y.run es).wire)) := by
          rcases hdk with ⟨j, e⟩ | ⟨j, e⟩ <;> rw [e] <;> trivial
        have hrun : y.run (es ++ [(y.run es).delivery (pick (y.run es).wire)]) =
            (y.run es).step ((y.run es).delivery (pick (y.run es).wire)) := by
          unfold Sys.run; rw [List.foldl_append]; rfl
        obtain ⟨ds, d1, d2, d3, d4⟩ := ih (es ++ [(y.run es).delivery (pick (y.run es).wire)])
          (by
            intro e he
            rw [List.mem_append, List.mem_singleton] at he
            rcases he with he | rfl
            · exact ho e he
            · exact hdo)
          (by rw [hrun]; omega)
        refine ⟨(y.run es).delivery (pick (y.run es).wire) :: ds, ?_, ?_, ?_, ?_⟩
        · rw [List.length_cons]; omega
        · intro d hm
          rcases List.mem_cons.mp hm with rfl | hm
          · exact hdk
          · exact d2 d hm
        · rw [List.append_assoc] at d3; exact d3
        · intro pre d post he
          cases pre with
          | nil =>
            rw [List.nil_append] at he
            rw [List.append_nil]
            exact (List.cons.inj he).1.symm
          | cons p pre =>
            rw [List.cons_append] at he
            obtain ⟨rfl, he'⟩ := List.cons.inj he
            have := d4 pre d post he'
            rw [List.append_assoc] at this
            exact this
  exact hgen _ es ho (Nat.le_refl _)

/-- **no null pointer is used** -/
theorem filters_safe {y : Sys} (h0 : y.Fresh) (hE : y.env.Good) (es : List Ev) (ho : ∀ e ∈ es, y.env.EvOk e) :
    (y.run es).crashed = false := (inv_run h0 hE es ho).crash

/-! ## The hold on the time of the sender -/

theorem busy_any {f : Cmd → Option (Int × Int)} {g : Cmd → Bool} {l : List Cmd} {o : List (Int × Int)} {fid : Int}
    (h : o.Perm (l.filterMap f)) (hg : ∀ c ∈ l, g c = true ↔ ∃ k, f c = some k ∧ k.1 = fid) :
    busy o fid = l.any g := by
  rw [Bool.eq_iff_iff]
  unfold busy
  rw [List.any_eq_true, List.any_eq_true]
  constructor
  · rintro ⟨p, hp, he⟩
    obtain ⟨c, hc, hk⟩ := List.mem_filterMap.mp (h.mem_iff.mp hp)
    exact ⟨c, hc, (hg c hc).mpr ⟨p, hk, by simpa using he⟩⟩
  · rintro ⟨c, hc, he⟩
    obtain ⟨k, hk, hf⟩ := (hg c hc).mp he
    exact ⟨k, h.symm.mem_iff.mp (List.mem_filterMap.mpr ⟨c, hc, hk⟩), by simpa using hf⟩

theorem isOut_key (E : Env) (fid : Int) (c : Cmd) : E.isOut fid c = true ↔ ∃ k, E.key c = some k ∧ k.1 = fid := by
  unfold Env.isOut Env.key
  cases c.act <;> simp [Option.any_eq_true] <;>
    exact ⟨fun ⟨e, a, b⟩ => ⟨_, e, a, b, rfl⟩, fun ⟨_, e, a, b, _⟩ => ⟨e, a, b⟩⟩

theorem isOutDest_key (E : Env) (fid : Int) (c : Cmd) :
    E.isOutDest fid c = true ↔ ∃ k, E.keyDest c = some k ∧ k.1 = fid := by
  unfold Env.isOutDest Env.keyDest
  cases c.act <;> simp [Option.any_eq_true] <;>
    exact ⟨fun ⟨e, a, b⟩ => ⟨_, e, a, b, rfl⟩, fun ⟨_, e, a, b, _⟩ => ⟨e, a, b⟩⟩

/-- **the hold**: the core holds back the time requests of a federate exactly while one of its messages is
out for filtering -/
theorem held_exactly_while_out {y : Sys} (h0 : y.Fresh) (hE : y.env.Good) (es : List Ev)
    (ho : ∀ e ∈ es, y.env.EvOk e) (fid : Int) :
    (y.run es).hasBlock fid = (y.run es).wire.any (y.env.isOut fid) := by
  have h := inv_run h0 hE es ho
  rw [hasBlock_iff h.holds]
  exact busy_any h.keys (fun c _ => isOut_key _ _ _)

/-- **the hold at the destination**: a federate is told to hold its time exactly while a message to it is
out for filtering -/
theorem dest_held_exactly_while_out {y : Sys} (h0 : y.Fresh) (hE : y.env.Good) (es : List Ev)
    (ho : ∀ e ∈ es, y.env.EvOk e) (fid : Int) :
    fid ∈ (y.run es).held ↔ (y.run es).wire.any (y.env.isOutDest fid) = true := by
  have h := inv_run h0 hE es ho
  rw [h.held]
  rw [busy_any h.keysD (fun c _ => isOutDest_key _ _ _)]

/-- **time requests are kept in order**: those of a federate are passed on in the order made, held back ones
after the others; while a message is out a request is held back, and when none is out nothing is -/
theorem requests_kept_in_order {y : Sys} (h0 : y.Fresh) (hE : y.env.Good) (es : List Ev)
    (ho : ∀ e ∈ es, y.env.EvOk e) (fid : Int) :
    (y.run es).timing.filter (fun d => decide (d.1 = fid)) ++ (y.run es).delayed.filter (fun d => decide (d.1 = fid)) =
      (es.filterMap Ev.toTime).filter (fun d => decide (d.1 = fid)) ∧
    ((y.run es).wire.any (y.env.isOut fid) = false →
      (y.run es).delayed.filter (fun d => decide (d.1 = fid)) = []) ∧
    ((y.run es).wire.any (y.env.isOut fid) = true → ∀ x,
      ((y.run es).step (.time fid x)).timing = (y.run es).timing) := by
  have h := inv_run h0 hE es ho
  have hb := held_exactly_while_out h0 hE es ho fid
  have hb' := hasBlock_iff h.holds fid
  refine ⟨h.holds.order fid, fun hn => ?_, fun hn x => ?_⟩
  · rw [List.filter_eq_nil_iff]
    intro d hd he
    have := h.holds.delayed d hd
    rw [show d.1 = fid by simpa using he, ← hb', hb, hn] at this
    cases this
  · unfold Sys.step
    dsimp only
    rw [hb, hn]
    rfl

/-- **a dropped message does not hold the federate for ever**: when nothing is under way, no federate is
held and all time requests have been passed on, whether messages came out of their filters or not -/
theorem nothing_held_at_rest {y : Sys} (h0 : y.Fresh) (hE : y.env.Good) (es : List Ev)
    (ho : ∀ e ∈ es, y.env.EvOk e) (hw : (y.run es).wire = []) (fid : Int) :
    (y.run es).hasBlock fid = false ∧ fid ∉ (y.run es).held ∧
    (y.run es).timing.filter (fun d => decide (d.1 = fid)) =
      (es.filterMap Ev.toTime).filter (fun d => decide (d.1 = fid)) := by
  have h1 := held_exactly_while_out h0 hE es ho fid
  have h2 := dest_held_exactly_while_out h0 hE es ho fid
  obtain ⟨h3, h4, -⟩ := requests_kept_in_order h0 hE es ho fid
  rw [hw] at h1 h2 h4
  refine ⟨h1, ?_, ?_⟩
  · rw [h2]; simp
  · rw [h4 rfl, List.append_nil] at h3; exact h3

/-! ## The order of the filters -/

/-- the types fit one after the other, starting with `t` -/
def Fits (mt : String → String → Bool) : String → List Typed → Prop
  | _, [] => True
  | t, f :: fs => mt f.inType t = true ∧ Fits mt f.outType fs

/-- the type after the filters -/
def lastType : String → List Typed → String
  | t, [] => t
  | _, f :: fs => lastType f.outType fs

theorem lastType_append (t : String) (a b : List Typed) : lastType t (a ++ b) = lastType (lastType t a) b := by
  induction a generalizing t with
  | nil => rfl
  | cons f a ih => exact ih f.outType

theorem fits_append (mt) (t : String) (a b : List Typed) :
    Fits mt t (a ++ b) ↔ Fits mt t a ∧ Fits mt (lastType t a) b := by
  induction a generalizing t with
  | nil => simp [Fits, lastType]
  | cons f a ih => simp only [List.cons_append, Fits, lastType, ih, and_assoc]

theorem typedPass_spec (mt) : ∀ (l : List Typed) (t : String),
    ((typedPass mt l t).1 ++ (typedPass mt l t).2.1).Perm l ∧ Fits mt t (typedPass mt l t).1 ∧
    (typedPass mt l t).2.2 = lastType t (typedPass mt l t).1 ∧
    ((typedPass mt l t).1 = [] → (typedPass mt l t).2.1 = l ∧ ∀ f ∈ l, mt f.inType t = false) := by
  intro l
  induction l with
  | nil => intro t; exact ⟨.refl _, trivial, rfl, fun _ => ⟨rfl, by simp⟩⟩
  | cons f l ih =>
    intro t
    unfold typedPass
    split
    · rename_i hm
      obtain ⟨h1, h2, h3, h4⟩ := ih f.outType
      refine ⟨?_, ⟨hm, h2⟩, h3, (nomatch ·)⟩
      exact h1.cons f
    · rename_i hm
      obtain ⟨h1, h2, h3, h4⟩ := ih t
      refine ⟨?_, h2, h3, ?_⟩
      · exact (List.perm_middle).trans (h1.cons f)
      · intro hn
        obtain ⟨h5, h6⟩ := h4 hn
        refine ⟨by dsimp only; rw [h5], ?_⟩
        intro g hg
        rcases List.mem_cons.mp hg with rfl | hg
        · simpa using hm
        · exact h6 g hg

theorem typedPasses_spec (mt) : ∀ (n : Nat) (l : List Typed) (t : String), l.length < n →
    ((typedPasses mt n l t).1 ++ (typedPasses mt n l t).2.1).Perm l ∧ Fits mt t (typedPasses mt n l t).1 ∧
    (typedPasses mt n l t).2.2 = lastType t (typedPasses mt n l t).1 ∧
    ∀ f ∈ (typedPasses mt n l t).2.1, mt f.inType (typedPasses mt n l t).2.2 = false := by
  intro n
  induction n with
  | zero => intro l t h; omega
  | succ n ih =>
    intro l t hl
    obtain ⟨h1, h2, h3, h4⟩ := typedPass_spec mt l t
    unfold typedPasses
    dsimp only
    split
    · rename_i hb
      refine ⟨h1, h2, h3, ?_⟩
      intro f hf
      rw [Bool.or_eq_true] at hb
      rcases hb with hb | hb
      · rw [List.isEmpty_iff.mp hb] at hf; cases hf
      · have ha := List.isEmpty_iff.mp hb
        obtain ⟨h5, h6⟩ := h4 ha
        rw [h3, ha]
        exact h6 f (h5 ▸ hf)
    · rename_i hb
      have hne : (typedPass mt l t).1 ≠ [] := by
        intro e; apply hb; rw [e]; simp
      have hlen := h1.length_eq
      rw [List.length_append] at hlen
      have : 0 < (typedPass mt l t).1.length := List.length_pos_iff.mpr hne
      obtain ⟨k1, k2, k3, k4⟩ := ih (typedPass mt l t).2.1 (typedPass mt l t).2.2 (by omega)
      rw [h3] at k2 k3 k4 ⊢
      rw [h3] at k1
      refine ⟨?_, ?_, ?_, k4⟩
      · rw [List.append_assoc]
        exact (k1.append_left _).trans h1
      · rw [fits_append]; exact ⟨h2, k2⟩
      · rw [lastType_append]; exact k3

/-- **the order of the filters of an endpoint**: none is lost or repeated; cloning filters come first, in the
order added; the others follow such that each one's input type fits what comes out of the one before,
starting with the type of the endpoint; and a filter is left out only if its input type does not fit what
comes out of the last -/
theorem filters_ordered (mt : String → String → Bool) (t : String) (all : List Typed) :
    ∃ chain, (organize mt t all).1 = all.filter (fun f => f.info.cloning) ++ chain ∧
      ((organize mt t all).1 ++ (organize mt t all).2).Perm all ∧
      (∀ f ∈ chain, f.info.cloning = false) ∧ Fits mt t chain ∧
      ∀ f ∈ (organize mt t all).2, f.info.cloning = false ∧ mt f.inType (lastType t chain) = false := by
  have hsplit : (all.filter (fun f => f.info.cloning) ++ all.filter (fun f => !f.info.cloning)).Perm all :=
    List.filter_append_perm _ _
  unfold organize
  dsimp only
  split
  · rename_i he
    have he' := List.isEmpty_iff.mp he
    rw [he', List.append_nil] at hsplit
    exact ⟨[], by simp, by simpa using hsplit, by simp, trivial, by simp⟩
  · obtain ⟨h1, h2, h3, h4⟩ := typedPasses_spec mt ((all.filter (fun f => !f.info.cloning)).length + 1)
      (all.filter (fun f => !f.info.cloning)) t (Nat.lt_succ_self _)
    have hmem : ∀ f, f ∈ (typedPasses mt ((all.filter (fun f => !f.info.cloning)).length + 1)
        (all.filter (fun f => !f.info.cloning)) t).1 ∨ f ∈ (typedPasses mt
        ((all.filter (fun f => !f.info.cloning)).length + 1) (all.filter (fun f => !f.info.cloning)) t).2.1 →
        f.info.cloning = false := by
      intro f hf
      have := h1.mem_iff.mp (List.mem_append.mpr hf)
      simpa using (List.mem_filter.mp this).2
    refine ⟨_, rfl, ?_, fun f hf => hmem f (.inl hf), h2, ?_⟩
    · rw [List.append_assoc]
      exact (h1.append_left _).trans hsplit
    · intro f hf
      refine ⟨hmem f (.inr hf), ?_⟩
      have := h4 f hf
      rw [h3] at this
      exact this

/-- the order puts cloning filters first, which `Env.GoodChain` asks for -/
theorem ordered_clones_first (mt : String → String → Bool) (t : String) (all : List Typed)
    (pre : List FInfo) (f : FInfo) (post : List FInfo)
    (h : (organize mt t all).1.map (·.info) = pre ++ f :: post) (hf : f.cloning = true) :
    ∀ g ∈ pre, g.cloning = true := by
  obtain ⟨chain, h1, -, h3, -⟩ := filters_ordered mt t all
  rw [h1, List.map_append] at h
  have hc : ∀ g ∈ (all.filter (fun f => f.info.cloning)).map (·.info), g.cloning = true := by
    intro g hg
    obtain ⟨x, hx, rfl⟩ := List.mem_map.mp hg
    simpa using (List.mem_filter.mp hx).2
  have hn : ∀ g ∈ chain.map (·.info), g.cloning = false := by
    intro g hg
    obtain ⟨x, hx, rfl⟩ := List.mem_map.mp hg
    exact h3 x hx
  generalize (all.filter (fun f => f.info.cloning)).map (·.info) = A at h hc
  generalize chain.map (·.info) = B at h hn
  rcases List.append_eq_append_iff.mp h with ⟨u, e1, e2⟩ | ⟨u, e1, e2⟩
  · exfalso
    have : f ∈ B := by rw [e2]; simp
    have := hn f this
    rw [hf] at this; cases this
  · intro g hg
    exact hc g (by rw [e1]; simp [hg])

end Verif.Filt
