import Verif.Lemmas.QueryLive
import Verif.Lemmas.QueryDrop
import Verif.Lemmas.QueryFresh
/-!
# C57: queries about the whole federation

A query such as `global_time` or `dependency_graph` put to a broker is answered with a document which contains
the answers of everybody below it.  Proved here, for every federation, every interleaving of any number of such
queries and of the messages they cause, delivered in any order: a given answer contains every member
below exactly once (`C57_complete`), nobody is answered twice (`C57_once`), when no message of the query is on its
way any more everybody has been answered (`C57_answered`), the messages run out (`C57_ends`), no list of
requesters is read when it is empty (`C57_safe`), answers are not older than the question (`C57_fresh`), and if a member goes while its answer is awaited the others'
answers are handed out without it (`C57_drop`).  What these need, and what happens without it, is in `QueryCases`.
-/
namespace Verif.Query

variable {net : Net}

/-- An answer given to a user contains a document of every member of the federation below the broker,
each exactly once and in its place. -/
theorem C57_complete (hok : net.Ok) {busy : Node → Bool} {es : List Ev} {i q v : Nat} {a : Ans} (he : Steady net i es)
    (hq : Asked ((start busy).run net es) q v i) (ha : Answered ((start busy).run net es) q a) : Lists net i v a :=
  (run_inv hok (start_inv busy) (steady_ev he)).right q v a hq ha

/-- No query is answered twice. -/
theorem C57_once (hok : net.Ok) {busy : Node → Bool} {es : List Ev} {i q v : Nat} (he : Steady net i es)
    (hq : Asked ((start busy).run net es) q v i) : times ((start busy).run net es) q ≤ 1 := by
  have := (run_inv hok (start_inv busy) (steady_ev he)).once q v hq
  omega

/-- When none of its messages is on its way any more, every query has been answered, exactly once. -/
theorem C57_answered (hok : net.Ok) {busy : Node → Bool} {es : List Ev} {i q v : Nat} (he : Steady net i es)
    (hd : Quiet ((start busy).run net es) i) (hq : Asked ((start busy).run net es) q v i) : times ((start busy).run net es) q = 1 :=
  quiet_answered hok (run_inv hok (start_inv busy) (steady_ev he)) hd hq

/-- The messages run out: from every state only so many can be taken, and they can all be taken. -/
theorem C57_ends (hok : net.Ok) {busy : Node → Bool} {es : List Ev} (he : InRange net es) :
    (∃ N, ∀ ks, Busy net ((start busy).run net es) ks → ks.length ≤ N) ∧
    ∃ ks, Busy net ((start busy).run net es) ks ∧ (((start busy).run net es).takes net ks).flight = [] := by
  have hf : Fit net ((start busy).run net es) := run_fit hok (fun m hm => by cases hm) he
  exact ⟨⟨_, fun ks hb => busy_bound hok hf hb⟩, drain hok _ _ hf (Nat.le_refl _)⟩

/-- A builder is never completed when nobody waits for it (`requesters.back()` is always defined). -/
theorem C57_safe (hok : net.Ok) {busy : Node → Bool} {es : List Ev} {i : Nat} (he : Steady net i es) (v : Node) :
    (((start busy).run net es).node v |>.slot i).bad = false :=
  ((run_inv hok (start_inv busy) (steady_ev he)).slots v).good

/-- Answers are not older than the question: a query put when no message of this kind is on its way is answered
with a document in which nothing was written down before; if answers are kept, this holds when no kept
answer is still valid. -/
theorem C57_fresh (hok : net.Ok) {busy : Node → Bool} {es es' : List Ev} {i q v : Nat} {a : Ans} (he : Steady net i (es ++ es'))
    (s : Sys) (hs : s = (start busy).run net es) (hd : Quiet s i)
    (hk : net.reuse i = true → (∀ w, ¬ Usable s w i) ∧ ∀ w n, Ev.count w n ∉ es') (hnew : s.asked.length ≤ q)
    (hq : Asked ((start busy).run net (es ++ es')) q v i) (ha : Answered ((start busy).run net (es ++ es')) q a) : Since s.now a := by
  have hev := steady_ev he
  have hI : Inv net i s := by rw [hs]; exact run_inv hok (start_inv busy) (fun e h => hev e (List.mem_append_left _ h))
  have hF := fresh_run hok hI (fresh_start hok hI hd (fun hr => (hk hr).1)) (fun e h => hev e (List.mem_append_right _ h)) (fun hr => (hk hr).2)
  have hrun : (start busy).run net (es ++ es') = s.run net es' := by
    rw [hs]; unfold Sys.run; exact List.foldl_append
  rw [hrun] at hq ha
  exact hF.right q v a hnew hq ha

/-- A member goes and its answer was the last one awaited: all who wait are answered, without it, provided
the broker keeps no finished answer to a query with a smaller number. -/
theorem C57_drop (hok : net.Ok) {busy : Node → Bool} {es : List Ev} {i q v u : Nat} (he : Steady net i es) (hi : i < net.types)
    (s : Sys) (hs : s = (start busy).run net es)
    (hq : Asked s q v i) (honly : ∀ w, Awaits s v i w → w = u) (hfirst : ∀ j, j < i → ¬ Keeps s v j) :
    times (s.step net (.drop v u)) q = 1 ∧
    ∀ a, Answered (s.step net (.drop v u)) q a → Lists net i v a ∨ ListsBut net i v u a := by
  have hI : Inv net i s := by rw [hs]; exact run_inv hok (start_inv busy) (steady_ev he)
  have hS := hI.slots v
  obtain ⟨x, hx⟩ : ∃ x : NSt, x = { s.node v with conn := upd (s.node v).conn u false } := ⟨_, rfl⟩
  have hxs : x.slot = (s.node v).slot := by rw [hx]
  -- the loop over the builders
  obtain ⟨post, hpost⟩ : ∃ post, List.range net.types = List.range i ++ i :: post := by
    obtain ⟨d, hd⟩ : ∃ d, net.types = (i + 1) + d := ⟨net.types - (i + 1), by omega⟩
    rw [hd, List.range_add, List.range_succ]
    exact ⟨(List.range d).map (fun x => i + 1 + x), by simp⟩
  have hnd : (List.range i ++ i :: post).Nodup := hpost ▸ List.nodup_range
  obtain ⟨y, o, hy1, hy2, hy3, hy4⟩ := dropLoop_reach (net := net) (v := v) (u := u) (List.range i) post x (by simp)
    (fun j hj => by
      rw [hxs]
      have := hfirst j (List.mem_range.1 hj)
      unfold Keeps at this
      simpa using this) hnd
  have hstep : s.step net (.drop v u) = s.put net v (NSt.dropLoop net v u (List.range i ++ i :: post) x) := by
    unfold Sys.step NSt.drop
    simp only
    rw [hpost, hx]
  rw [hxs] at hy1
  have hother : ∀ j, j ≠ i → Dest.user q ∉ ((s.node v).slot j).reqs := by
    intro j hj hm
    have := hI.who v j q hm
    unfold Asked at hq
    rw [this] at hq
    exact hj (congrArg Prod.snd (Option.some.inj hq))
  have ho : ∀ a, (q, a) ∉ o.flatMap Out.ans := by
    intro a ha
    obtain ⟨j, hj, hm⟩ := hy4 q a ha
    rw [hxs] at hm
    exact hother j (by have := List.mem_range.1 hj; omega) hm
  have hpi : ∀ j ∈ post, j ≠ i := by
    intro j hj e
    rw [List.nodup_append] at hnd
    have := hnd.2.1
    rw [List.nodup_cons] at this
    exact this.1 (by rw [← e]; exact hj)
  have hans : (s.step net (.drop v u)).answers = s.answers ++ (o.flatMap Out.ans ++ (NSt.dropLoop net v u (i :: post) y).2.flatMap Out.ans) := by
    rw [hstep, hy3]
    simp only [Sys.put, List.flatMap_append]
  -- what is new
  have hnew : ∃ l : List (Nat × Ans), (NSt.dropLoop net v u (i :: post) y).2.flatMap Out.ans = l ∧
      l.countP (fun p => p.1 == q) = ((s.node v).slot i).reqs.count (.user q) ∧ ∀ a, (q, a) ∈ l → ListsBut net i v u a := by
    refine ⟨_, rfl, ?_⟩
    by_cases hm : ((s.node v).slot i).b.missing = []
    · have hr := hS.wait.2 hm
      have hnone : ∀ a, (q, a) ∉ (NSt.dropLoop net v u (i :: post) y).2.flatMap Out.ans := by
        intro a ha
        obtain ⟨j, hj, hmm⟩ := dropLoop_users (i :: post) y ha
        rcases List.mem_cons.1 hj with e | hj
        · subst e; rw [hy1, hr] at hmm; cases hmm
        · rw [hy2 j hj, hxs] at hmm; exact hother j (hpi j hj) hmm
      refine ⟨?_, fun a ha => absurd ha (hnone a)⟩
      rw [hr, List.countP_eq_zero.2]
      · rfl
      · intro p hp e
        simp at e
        exact hnone p.2 (by rw [← e]; exact hp)
    · -- the builder waits for `u` alone
      cases hmap : ((s.node v).slot i).b.map with
      | none => exact absurd (hS.none hmap) hm
      | some t =>
        obtain ⟨es', h1, h2, h3⟩ := hS.some t.1 t.2 hmap
        have hall : ∀ p ∈ ((s.node v).slot i).b.missing, p.2.2 = u := fun p hp => honly _ ⟨p, hp, rfl⟩
        obtain ⟨p, hp⟩ : ∃ p, ((s.node v).slot i).b.missing = [p] := by
          cases hmm : ((s.node v).slot i).b.missing with
          | nil => exact absurd hmm hm
          | cons p ps =>
            cases ps with
            | nil => exact ⟨p, rfl⟩
            | cons p' ps =>
              exfalso
              have hnd2 := h2.nodup_iff.2 (kids_nodup v)
              rw [List.nodup_append] at hnd2
              have := hnd2.2.1
              rw [hmm] at this hall
              simp only [List.map_cons, List.nodup_cons] at this
              refine this.1 (List.mem_cons.2 (.inl ?_))
              rw [hall p (List.mem_cons_self ..), hall p' (List.mem_cons_of_mem _ (List.mem_cons_self ..))]
        have hpu : p.2.2 = u := hall p (by rw [hp]; exact List.mem_singleton.2 rfl)
        have hcomp : (y.slot i).b.completed = false := by
          rw [hy1]; unfold Builder.completed; rw [hp]; simp
        have hclear : (y.slot i).b.clear u = ({ ((s.node v).slot i).b with missing := [] }, true) := by
          rw [hy1]; unfold Builder.clear; rw [hp]; simp [hpu]
        have hreq : (y.slot i).reqs = ((s.node v).slot i).reqs := by rw [hy1]
        have hgen : ListsBut net i v u (Builder.gen { ((s.node v).slot i).b with missing := [] } v i) := by
          refine ⟨t.1, es', ?_, ?_, h3⟩
          · unfold Builder.gen; rw [hmap]; simp only [h1]
          · rw [hp] at h2
            simp only [List.map_cons, List.map_nil, hpu] at h2
            have h4 := h2.filter (· != u)
            rw [List.filter_append] at h4
            have hnu : u ∉ es'.map (·.1) := by
              have := h2.nodup_iff.2 (kids_nodup v)
              rw [List.nodup_append] at this
              intro hm'
              exact this.2.2 u hm' u (List.mem_singleton.2 rfl) rfl
            have h5 : (es'.map (·.1)).filter (· != u) = es'.map (·.1) := by
              rw [List.filter_eq_self]
              intro w hw
              simp
              intro e; exact hnu (by rw [← e]; exact hw)
            rw [h5] at h4
            simpa using h4
        unfold NSt.dropLoop
        simp only [hcomp, hclear, Bool.false_eq_true, if_false, if_true]
        rw [hreq, replies_eq (fun _ _ => rfl)]
        simp only [List.flatMap_append]
        have hrest : ∀ sl : Slot, ∀ a, (q, a) ∉ (NSt.dropLoop net v u post { y with slot := upd y.slot i sl }).2.flatMap Out.ans := by
          intro sl a ha
          obtain ⟨j, hj, hmm⟩ := dropLoop_users post _ ha
          simp only at hmm
          rw [upd_ne _ _ (hpi j hj), hy2 j hj, hxs] at hmm
          exact hother j (hpi j hj) hmm
        refine ⟨?_, ?_⟩
        · rw [List.countP_append, ans_replies]
          rw [List.countP_eq_zero.2]
          · rfl
          · intro p' hp' e
            simp at e
            exact hrest _ p'.2 (by rw [← e]; exact hp')
        · intro a ha
          rcases List.mem_append.1 ha with ha | ha
          · rw [(ans_mem ha).1]; exact hgen
          · exact absurd ha (hrest _ a)
  obtain ⟨l, hl, hcount, hbut⟩ := hnew
  rw [hl] at hans
  constructor
  · have h1 := hI.once q v hq
    unfold times at h1 ⊢
    rw [hans, List.countP_append, List.countP_append, hcount]
    have h0 : (o.flatMap Out.ans).countP (fun p => p.1 == q) = 0 := by
      rw [List.countP_eq_zero]
      intro p hp e
      simp at e
      exact ho p.2 (by rw [← e]; exact hp)
    omega
  · intro a ha
    unfold Answered at ha
    rw [hans] at ha
    rcases List.mem_append.1 ha with ha | ha
    · exact .inl (hI.right q v a hq ha)
    · rcases List.mem_append.1 ha with ha | ha
      · exact absurd ha (ho a)
      · exact .inr (hbut a ha)

/-- A member goes while somebody else's answer is awaited too: the query is not answered yet, and the
other is still awaited. -/
theorem C57_drop_waits (hok : net.Ok) {busy : Node → Bool} {es : List Ev} {i q v u w : Nat} (he : Steady net i es)
    (s : Sys) (hs : s = (start busy).run net es) (hq : Asked s q v i) (hw : Awaits s v i w) (hne : w ≠ u) :
    times (s.step net (.drop v u)) q = times s q ∧ Awaits (s.step net (.drop v u)) v i w := by
  have hI : Inv net i s := by rw [hs]; exact run_inv hok (start_inv busy) (steady_ev he)
  obtain ⟨p, hp, hpw⟩ := hw
  obtain ⟨h1, h2⟩ := dropLoop_keep (net := net) (v := v) (u := u) (List.range net.types) { s.node v with conn := upd (s.node v).conn u false }
    (p := p) hp (by rw [hpw]; exact hne)
  constructor
  · have h0 : ((NSt.dropLoop net v u (List.range net.types) { s.node v with conn := upd (s.node v).conn u false }).2.flatMap Out.ans).countP
        (fun p => p.1 == q) = 0 := by
      rw [List.countP_eq_zero]
      intro e he' eq
      simp at eq
      obtain ⟨j, hj, hm⟩ := h2 q e.2 (by rw [← eq]; exact he')
      have := hI.who v j q hm
      unfold Asked at hq
      rw [this] at hq
      injection hq with hq
      injection hq with _ hq
      exact hj hq
    unfold times Sys.step Sys.put NSt.drop
    simp only
    rw [List.countP_append, h0]
    rfl
  · refine ⟨p, ?_, hpw⟩
    unfold Sys.step Sys.put NSt.drop
    simp only [upd_same]
    exact h1

end Verif.Query
