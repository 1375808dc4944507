import Verif.Props.ChecksSpec
/-! # Lemmas for the connection checks -/
namespace Verif.Checks

theorem snoc_ind {α : Type} {P : List α → Prop} (h0 : P []) (h1 : ∀ l r, P l → P (l ++ [r])) (l : List α) : P l := by
  rw [← List.reverse_reverse l]
  induction l.reverse with
  | nil => exact h0
  | cons x xs ih => rw [List.reverse_cons]; exact h1 _ _ ih

/-! ## Lists without repetition -/

theorem length_le {α : Type} [DecidableEq α] {A B : List α} (hn : A.Nodup) (h : ∀ x ∈ A, x ∈ B) : A.length ≤ B.length := by
  induction A generalizing B with
  | nil => simp
  | cons a as ih =>
    rw [List.nodup_cons] at hn
    have ha : a ∈ B := h a (by simp)
    have := ih (B := B.erase a) hn.2 (fun x hx => by
      have hne : x ≠ a := fun e => hn.1 (e ▸ hx)
      exact (List.mem_erase_of_ne hne).2 (h x (by simp [hx])))
    rw [List.length_erase_of_mem ha] at this
    have hpos : 0 < B.length := List.length_pos_of_mem ha
    simp only [List.length_cons]; omega

theorem Lists.length_eq {α : Type} [DecidableEq α] {A B : List α} {P : α → Prop} (ha : Lists A P) (hb : Lists B P) : A.length = B.length :=
  Nat.le_antisymm (length_le ha.1 fun x hx => (hb.2 x).2 ((ha.2 x).1 hx)) (length_le hb.1 fun x hx => (ha.2 x).2 ((hb.2 x).1 hx))

theorem nodup_eraseDups {α : Type} [DecidableEq α] (l : List α) : l.eraseDups.Nodup := by
  suffices H : ∀ n (l : List α), l.length ≤ n → l.eraseDups.Nodup from H l.length l (Nat.le_refl _)
  intro n
  induction n with
  | zero => intro l h; rw [List.length_eq_zero_iff.1 (Nat.le_zero.1 h)]; simp
  | succ n ih =>
    intro l h
    cases l with
    | nil => simp
    | cons a as =>
      rw [List.eraseDups_cons, List.nodup_cons]
      refine ⟨?_, ih _ ?_⟩
      · rw [List.mem_eraseDups]; simp
      · have := List.length_filter_le (fun b => !b == a) as
        simp only [List.length_cons] at h; omega

/-! ## "The last call decides" -/

theorem lastSays_nil {α β : Type} (says : α → Option β) (s : β) : lastSays says s [] = s := rfl

theorem lastSays_snoc {α β : Type} (says : α → Option β) (s : β) (l : List α) (x : α) :
    lastSays says s (l ++ [x]) = (says x).getD (lastSays says s l) := by
  unfold lastSays
  rw [List.reverse_append]
  simp only [List.reverse_cons, List.reverse_nil, List.nil_append, List.cons_append, List.findSome?_cons]
  cases says x <;> rfl

/-! ## Inputs -/

/-- What the input holds of a source beside its values. -/
def tag (s : Src) : GHandle × String × String := (s.handle, s.type, s.units)

theorem updateData_tag (oc : Bool) (s : Src) (u : DRec) : tag (Input.updateData oc s u).1 = tag s := by
  unfold Input.updateData; repeat' split
  all_goals rfl

theorem consumes_tag {oc : Bool} {s : Src} {r : Src × List DRec × Bool} (h : Input.Consumes oc s r) : tag r.1 = tag s := by
  cases hl : r.2.1.getLast? with
  | none => rw [(h.keep (List.getLast?_eq_none_iff.1 hl)).1]
  | some u =>
    obtain ⟨q, hq, _⟩ := h.upd u hl
    rw [hq]; exact updateData_tag oc s u

theorem moved_tag {i : Input} {f : Src → Src × List DRec × Bool} {oc : Bool} (hf : ∀ s ∈ i.srcs, Input.Consumes oc s (f s)) :
    (i.moved f).srcs.map tag = i.srcs.map tag := by
  unfold Input.moved; dsimp only; rw [List.map_map]
  exact List.map_congr_left fun s hs => consumes_tag (hf s hs)

theorem deactivate_tag (T : Time) (s : Src) : tag (Input.deactivate T s) = tag s := by
  unfold Input.deactivate; split <;> rfl

theorem srcRemove_tag (T : Time) (s : Src) : tag (Input.srcRemove T s).1 = tag s := by
  unfold Input.srcRemove; dsimp only; rw [deactivate_tag]; rfl

theorem step_tag {i : Input} (hi : Input.Inv i) (o : Input.Op) (ho : ∀ h n ty u, o ≠ .addSource h n ty u) :
    (i.step o).1.srcs.map tag = i.srcs.map tag := by
  cases o with
  | add h t it d =>
    simp only [Input.step]
    cases d with
    | none => simp [Input.addData]
    | some b =>
      cases hr : i.addToSrcs h ⟨t, it, b⟩ i.srcs with
      | none => simp [Input.addData, hr]
      | some ss =>
        obtain ⟨pre, s, post, e1, e2, e3, e4, e5, e6⟩ := Input.addToSrcs_some hi.sorted hr
        simp only [Input.addData, hr]
        rw [e6, e1]; simp [tag]
  | upTo T => simp only [Input.step, Input.updateTimeUpTo_eq]; exact moved_tag fun s _ => Input.consumes_upTo _ _ s
  | inclusive T => simp only [Input.step, Input.updateTimeInclusive_eq]; exact moved_tag fun s _ => Input.consumes_inclusive _ _ s
  | nextIteration T => simp only [Input.step, Input.updateTimeNextIteration_eq]; exact moved_tag fun s _ => Input.srcNextIter_consumes _ _ s
  | addSource h n ty u => exact absurd rfl (ho h n ty u)
  | remove h T =>
    simp only [Input.step, Input.removeSource, Input.removeLoop_eq, List.map_map]
    exact List.map_congr_left fun s _ => by
      simp only [Function.comp]; split
      · exact srcRemove_tag T s
      · rfl
  | removeNamed n T =>
    simp only [Input.step, Input.removeSourceNamed, Input.removeLoop_eq, List.map_map]
    exact List.map_congr_left fun s _ => by
      simp only [Function.comp]; split
      · exact srcRemove_tag T s
      · rfl
  | disconnect f T =>
    simp only [Input.step, Input.disconnectFederate, List.map_map]
    exact List.map_congr_left fun s _ => by
      simp only [Function.comp]; split
      · exact deactivate_tag T s
      · rfl
  | clear => simp only [Input.step, Input.clearFutureData, List.map_map]; rfl
  | set o v => simp only [Input.step]; rw [(Input.setProperty_srcs i o v).1]

/-- Type and units held for `h`. -/
def tagOf (l : List Src) (h : GHandle) : Option (String × String) :=
  (l.find? (fun s => decide (s.handle = h))).map (fun s => (s.type, s.units))

theorem tagOf_congr {l l' : List Src} (he : l'.map tag = l.map tag) (h : GHandle) : tagOf l' h = tagOf l h := by
  induction l generalizing l' with
  | nil => rw [List.map_nil, List.map_eq_nil_iff] at he; rw [he]
  | cons a as ih =>
    cases l' with
    | nil => simp at he
    | cons b bs =>
      simp only [List.map_cons, List.cons.injEq] at he
      have h1 := ih he.2
      have h2 := he.1
      simp only [tag, Prod.mk.injEq] at h2
      unfold tagOf at h1 ⊢
      rw [List.find?_cons, List.find?_cons, h2.1]
      by_cases hh : a.handle = h
      · simp [hh, h2.2.1, h2.2.2]
      · simp only [hh, decide_false]; exact h1

theorem reconnect_tagOf {h : GHandle} {u : String} {l l' : List Src} {b : Bool} (he : Input.reconnect h u l = some (l', b)) (h' : GHandle) :
    tagOf l' h' = if h = h' then
      (match l.find? (fun s => decide (s.handle = h)) with
        | none => none
        | some s => if s.deact < maxVal then some (u, u) else some (s.type, s.units))
      else tagOf l h' := by
  induction l generalizing l' with
  | nil => cases he
  | cons a as ih =>
    unfold Input.reconnect at he
    split at he
    · rename_i hh
      split at he
      · rename_i hd
        cases he
        unfold tagOf
        simp only [List.find?_cons, hh]
        by_cases e : h = h'
        · simp [e, hd]
        · simp [e]
      · rename_i hd
        cases he
        unfold tagOf
        simp only [List.find?_cons, hh]
        by_cases e : h = h'
        · simp [e, hh ▸ e, hd]
        · simp [e]
    · rename_i hh
      cases hr : Input.reconnect h u as with
      | none => rw [hr] at he; cases he
      | some r =>
        obtain ⟨l2, b2⟩ := r
        rw [hr] at he; cases he
        have := ih hr
        unfold tagOf at this ⊢
        simp only [List.find?_cons, hh, decide_false]
        by_cases e : a.handle = h'
        · have : ¬ h = h' := fun x => hh (e.trans x.symm)
          simp [e, this]
        · simp only [e, decide_false]; exact this

theorem reconnect_handles {h : GHandle} {u : String} {l l' : List Src} {b : Bool} (he : Input.reconnect h u l = some (l', b)) :
    l'.map (·.handle) = l.map (·.handle) ∧ h ∈ l.map (·.handle) := by
  induction l generalizing l' with
  | nil => cases he
  | cons a as ih =>
    unfold Input.reconnect at he
    split at he
    · rename_i hh
      split at he <;> cases he <;> simp [hh]
    · cases hr : Input.reconnect h u as with
      | none => rw [hr] at he; cases he
      | some r =>
        obtain ⟨l2, b2⟩ := r
        rw [hr] at he; cases he
        have := ih hr
        simp [this.1, List.mem_map.1 this.2]

theorem handles_of_tag {l l' : List Src} (h : l'.map tag = l.map tag) : l'.map (·.handle) = l.map (·.handle) := by
  have := congrArg (List.map Prod.fst) h
  simpa [List.map_map, Function.comp_def, tag] using this

/-- The sources of an input are those ever connected to it. -/
theorem input_handles (i : Input) (h0 : i.srcs = []) (hq : i.queued = 0) (ops : List Input.Op) :
    Lists ((i.run ops).srcs.map (·.handle)) (EverConnected ops) := by
  refine ⟨(Input.C35_sources i h0 hq ops).1, ?_⟩
  induction ops using snoc_ind with
  | h0 => simp [Input.run, h0, EverConnected]
  | h1 ops x ih =>
    intro h
    rw [Input.run_append]
    simp only [Input.run]
    have hinv := Input.run_inv (Input.fresh_inv i h0 hq) ops
    by_cases hx : ∃ h' n ty u, x = .addSource h' n ty u
    · obtain ⟨h', n, ty, u, rfl⟩ := hx
      have hspec : EverConnected (ops ++ [.addSource h' n ty u]) h ↔ EverConnected ops h ∨ h = h' := by
        unfold EverConnected
        simp only [List.mem_append, List.mem_singleton, Input.Op.addSource.injEq]
        constructor
        · rintro ⟨n', t', u', hm | ⟨rfl, _⟩⟩
          · exact .inl ⟨_, _, _, hm⟩
          · exact .inr rfl
        · rintro (⟨n', t', u', hm⟩ | rfl)
          · exact ⟨_, _, _, .inl hm⟩
          · exact ⟨n, ty, u, .inr ⟨rfl, rfl, rfl, rfl⟩⟩
      rw [hspec, ← ih h]
      simp only [Input.step, Input.addSource]
      cases hr : Input.reconnect h' u (i.run ops).srcs with
      | none => simp
      | some r =>
        obtain ⟨l2, b2⟩ := r
        dsimp only
        have := reconnect_handles hr
        rw [this.1]
        constructor
        · exact .inl
        · rintro (hm | rfl)
          · exact hm
          · exact this.2
    · have hx' : ∀ h n ty u, x ≠ .addSource h n ty u := fun h n ty u e => hx ⟨h, n, ty, u, e⟩
      rw [handles_of_tag (step_tag hinv x hx'), ih h]
      unfold EverConnected
      simp only [List.mem_append, List.mem_singleton]
      constructor
      · rintro ⟨n, ty, u, hm⟩; exact ⟨n, ty, u, .inl hm⟩
      · rintro ⟨n, ty, u, hm | hm⟩
        · exact ⟨n, ty, u, hm⟩
        · exact absurd hm.symm (hx' h n ty u)

theorem known_fst (h : GHandle) (ops : List Input.Op) (c : Option (String × Time) × Option (String × String)) :
    (ops.foldl (known h) c).1 = ops.foldl (Input.connection h) c.1 := by
  induction ops generalizing c with
  | nil => rfl
  | cons o os ih => rw [List.foldl_cons, List.foldl_cons, ih]; rfl

/-- The type and units held for each source. -/
theorem input_offers (i : Input) (h0 : i.srcs = []) (hq : i.queued = 0) (ops : List Input.Op) (h : GHandle) :
    tagOf (i.run ops).srcs h = offers ops h := by
  induction ops using snoc_ind with
  | h0 => simp [Input.run, h0, offers, tagOf]
  | h1 ops x ih =>
    rw [Input.run_append]
    simp only [Input.run]
    have hinv := Input.run_inv (Input.fresh_inv i h0 hq) ops
    have hc := (Input.C35_sources i h0 hq ops).2 h
    have hk := known_fst h ops (none, none)
    unfold offers at ih ⊢
    rw [List.foldl_append, List.foldl_cons, List.foldl_nil]
    by_cases hx : ∃ h' n ty u, x = .addSource h' n ty u
    · obtain ⟨h', n, ty, u, rfl⟩ := hx
      simp only [known]
      rw [hk, ← hc, ← ih]
      simp only [Input.step, Input.addSource]
      cases hr : Input.reconnect h' u (i.run ops).srcs with
      | some r =>
        obtain ⟨l2, b2⟩ := r
        dsimp only
        rw [reconnect_tagOf hr h]
        by_cases e : h' = h
        · subst e
          simp only [if_true]
          unfold Input.slot tagOf
          have hm := (reconnect_handles hr).2
          cases hf : (i.run ops).srcs.find? (fun s => decide (s.handle = h')) with
          | none =>
            rw [List.find?_eq_none] at hf
            obtain ⟨s, hs, e⟩ := List.mem_map.1 hm
            exact absurd e (by simpa using hf s hs)
          | some s => simp
        · simp [e]
      | none =>
        have hno := Input.reconnect_none hr
        dsimp only
        unfold tagOf Input.slot
        rw [List.find?_append]
        by_cases e : h' = h
        · subst e
          have : (i.run ops).srcs.find? (fun s => decide (s.handle = h')) = none := by
            rw [List.find?_eq_none]; intro s hs; simpa using hno s hs
          simp [this]
        · simp [e]
    · have hx' : ∀ h n ty u, x ≠ .addSource h n ty u := fun h n ty u e => hx ⟨h, n, ty, u, e⟩
      rw [tagOf_congr (step_tag hinv x hx'), ih]
      cases x <;> first | rfl | exact absurd rfl (hx' _ _ _ _)

theorem mem_tagOf {l : List Src} (hn : (l.map (·.handle)).Nodup) (ty u : String) :
    (∃ s ∈ l, s.type = ty ∧ s.units = u) ↔ ∃ h, tagOf l h = some (ty, u) := by
  constructor
  · rintro ⟨s, hs, rfl, rfl⟩
    exact ⟨s.handle, by unfold tagOf; rw [Input.find_of_mem hn hs]; rfl⟩
  · rintro ⟨h, hh⟩
    unfold tagOf at hh
    rw [Option.map_eq_some_iff] at hh
    obtain ⟨s, hs, he⟩ := hh
    simp only [Prod.mk.injEq] at he
    exact ⟨s, List.mem_of_find?_eq_some hs, he.1, he.2⟩

/-- The options of an input are not touched by its other calls. -/
theorem input_opts (i : Input) (hs : i.srcs = []) (hq : i.queued = 0) (ops : List Input.Op) :
    (i.run ops).required = lastSays (onInput saysRequired) i.required ops ∧
    (i.run ops).requiredConns = lastSays (onInput saysInputCount) i.requiredConns ops ∧
    (i.run ops).strictType = lastSays (onInput saysStrict) i.strictType ops ∧
    (i.run ops).ignoreUnit = lastSays (onInput saysIgnoreUnit) i.ignoreUnit ops := by
  induction ops using snoc_ind with
  | h0 => exact ⟨rfl, rfl, rfl, rfl⟩
  | h1 ops x ih =>
    rw [Input.run_append]
    simp only [Input.run, lastSays_snoc]
    obtain ⟨a, b, c, d⟩ := ih
    rw [← a, ← b, ← c, ← d]
    generalize i.run ops = j
    cases x with
    | set o v =>
      cases o <;> simp [Input.step, Input.setProperty, onInput, saysRequired, saysInputCount, saysStrict, saysIgnoreUnit] <;>
        by_cases hv : v = 0 <;> simp [hv]
    | add h t it d =>
      simp only [Input.step, onInput, Option.getD_none, Input.addData]
      repeat' split
      all_goals exact ⟨rfl, rfl, rfl, rfl⟩
    | addSource h n ty u =>
      simp only [Input.step, onInput, Option.getD_none, Input.addSource]
      repeat' split
      all_goals exact ⟨rfl, rfl, rfl, rfl⟩
    | upTo T => simp only [Input.step, Input.updateTimeUpTo_eq]; exact ⟨rfl, rfl, rfl, rfl⟩
    | inclusive T => simp only [Input.step, Input.updateTimeInclusive_eq]; exact ⟨rfl, rfl, rfl, rfl⟩
    | nextIteration T => simp only [Input.step, Input.updateTimeNextIteration_eq]; exact ⟨rfl, rfl, rfl, rfl⟩
    | _ => exact ⟨rfl, rfl, rfl, rfl⟩

theorem newInput_opts (g : Flags) : (newInput g).srcs = [] ∧ (newInput g).queued = 0 ∧ (newInput g).required = g.req ∧
    (newInput g).requiredConns = g.count ∧ (newInput g).strictType = false ∧ (newInput g).ignoreUnit = false := by
  obtain ⟨a, b, c, d⟩ := g
  cases a <;> cases b <;> cases c <;> exact ⟨rfl, rfl, rfl, rfl, rfl, rfl⟩

/-! ## Publications -/

theorem pub_opts (p : Pub) (ops : List Pub.Op) :
    (p.run ops).required = lastSays (onPub saysRequired) p.required ops ∧
    (p.run ops).requiredConns = lastSays (onPub saysOutputCount) p.requiredConns ops := by
  induction ops using snoc_ind with
  | h0 => exact ⟨rfl, rfl⟩
  | h1 ops x ih =>
    rw [Pub.run_append]
    simp only [Pub.run, lastSays_snoc]
    obtain ⟨a, b⟩ := ih
    rw [← a, ← b]
    generalize p.run ops = j
    cases x with
    | set o v =>
      cases o <;> simp [Pub.step, Pub.setProperty, onPub, saysRequired, saysOutputCount] <;>
        by_cases hv : v = 0 <;> simp [hv]
    | publish d t f =>
      simp only [Pub.step, onPub, Option.getD_none, Pub.checkSetValue]
      repeat' split
      all_goals exact ⟨rfl, rfl⟩
    | subscribe h n =>
      simp only [Pub.step, onPub, Option.getD_none, Pub.addSubscriber]
      split <;> exact ⟨rfl, rfl⟩
    | _ => exact ⟨rfl, rfl⟩

theorem newPub_opts (g : Flags) : (newPub g).subscribers = [] ∧ (newPub g).required = g.req ∧ (newPub g).requiredConns = g.count := by
  obtain ⟨a, b, c, d⟩ := g
  cases a <;> cases b <;> cases c <;> exact ⟨rfl, rfl, rfl⟩

/-! ## Endpoints -/

/-- The connection calls of a history. -/
def conns : List ECall → List Endpoint.CallC
  | [] => []
  | .addDestination h n t :: cs => .addDestination h n t :: conns cs
  | .addSource h n t :: cs => .addSource h n t :: conns cs
  | .remove h :: cs => .remove h :: conns cs
  | .disconnect f :: cs => .disconnect f :: conns cs
  | .set _ _ :: cs => conns cs

/-- What the connection lists of an endpoint are. -/
def lists (e : Endpoint) : List EInfo × List EInfo × List (GHandle × String) := (e.targetInfo, e.sources, e.targets)

theorem lists_stepC {e e' : Endpoint} (h : lists e = lists e') (c : Endpoint.CallC) : lists (e.stepC c) = lists (e'.stepC c) := by
  simp only [lists, Prod.mk.injEq] at h ⊢
  obtain ⟨a, b, d⟩ := h
  cases c with
  | addDestination h n t =>
    simp only [Endpoint.stepC, Endpoint.addDestination, a]
    split <;> simp [a, b, d]
  | addSource h n t =>
    simp only [Endpoint.stepC, Endpoint.addSource, b]
    split <;> simp [a, b, d]
  | remove h =>
    simp only [Endpoint.stepC, Endpoint.removeTarget, Endpoint.dropWhere, a]
    repeat' split
    all_goals simp_all
  | disconnect h =>
    simp only [Endpoint.stepC, Endpoint.disconnectFederate, Endpoint.dropWhere, a]
    repeat' split
    all_goals simp_all

theorem lists_run (e e' : Endpoint) (h : lists e = lists e') (cs : List ECall) : lists (cs.foldl eptStep e) = lists (e'.runC (conns cs)) := by
  induction cs generalizing e e' with
  | nil => exact h
  | cons c cs ih =>
    rw [List.foldl_cons]
    cases c with
    | addDestination h' n t => exact ih _ _ (lists_stepC h (.addDestination h' n t))
    | addSource h' n t => exact ih _ _ (lists_stepC h (.addSource h' n t))
    | remove h' => exact ih _ _ (lists_stepC h (.remove h'))
    | disconnect f => exact ih _ _ (lists_stepC h (.disconnect f))
    | set o v =>
      refine ih _ _ (Eq.trans ?_ h)
      cases o <;> rfl

theorem effects_dest (h : GHandle) (cs : List ECall) (b : Bool) :
    connectedAfter b ((conns cs).map (Endpoint.effectDest h)) = connectedAfter b (cs.map (destEffect h)) := by
  induction cs generalizing b with
  | nil => rfl
  | cons c cs ih =>
    cases c with
    | set o v => exact ih b
    | addDestination h' n t =>
      simp only [conns, List.map_cons, Endpoint.effectDest, destEffect]
      by_cases e : h' = h <;> simp [e, connectedAfter, ih]
    | addSource h' n t => simp only [conns, List.map_cons, Endpoint.effectDest, destEffect, connectedAfter]; exact ih b
    | remove h' =>
      simp only [conns, List.map_cons, Endpoint.effectDest, destEffect]
      by_cases e : h' = h <;> simp [e, connectedAfter, ih]
    | disconnect f =>
      simp only [conns, List.map_cons, Endpoint.effectDest, destEffect]
      by_cases e : h.fed = f <;> simp [e, connectedAfter, ih]

theorem effects_src (h : GHandle) (cs : List ECall) (b : Bool) :
    connectedAfter b ((conns cs).map (Endpoint.effectSrc h)) = connectedAfter b (cs.map (sourceEffect h)) := by
  induction cs generalizing b with
  | nil => rfl
  | cons c cs ih =>
    cases c with
    | set o v => exact ih b
    | addSource h' n t =>
      simp only [conns, List.map_cons, Endpoint.effectSrc, sourceEffect]
      by_cases e : h' = h <;> simp [e, connectedAfter, ih]
    | addDestination h' n t => simp only [conns, List.map_cons, Endpoint.effectSrc, sourceEffect, connectedAfter]; exact ih b
    | remove h' =>
      simp only [conns, List.map_cons, Endpoint.effectSrc, sourceEffect]
      by_cases e : h' = h <;> simp [e, connectedAfter, ih]
    | disconnect f =>
      simp only [conns, List.map_cons, Endpoint.effectSrc, sourceEffect]
      by_cases e : h.fed = f <;> simp [e, connectedAfter, ih]

theorem ept_lists (e : Endpoint) (h0 : e.targetInfo = []) (h1 : e.sources = []) (h2 : e.targets = []) (cs : List ECall) :
    Lists ((cs.foldl eptStep e).targetInfo.map (·.id)) (SendsTo cs) ∧ Lists ((cs.foldl eptStep e).sources.map (·.id)) (HearsFrom cs) := by
  have hl := lists_run e e rfl cs
  simp only [lists, Prod.mk.injEq] at hl
  obtain ⟨a, b, c, d, f⟩ := Endpoint.C35_endpoint_lists e h0 h1 h2 (conns cs)
  rw [hl.1, hl.2.1]
  refine ⟨⟨a, fun h => ?_⟩, ⟨b, fun h => ?_⟩⟩
  · have := d h
    rw [c, List.map_map] at this
    unfold SendsTo
    rw [← effects_dest, ← this]; rfl
  · unfold HearsFrom
    rw [f h, effects_src]

theorem ept_opts (e : Endpoint) (cs : List ECall) :
    (cs.foldl eptStep e).required = lastSays (onEpt saysRequired) e.required cs ∧
    (cs.foldl eptStep e).requiredConns = lastSays (onEpt saysOutputCount) e.requiredConns cs ∧
    (cs.foldl eptStep e).targeted = e.targeted := by
  induction cs using snoc_ind with
  | h0 => exact ⟨rfl, rfl, rfl⟩
  | h1 ops x ih =>
    rw [List.foldl_append]
    simp only [List.foldl_cons, List.foldl_nil, lastSays_snoc]
    obtain ⟨a, b, c⟩ := ih
    rw [← a, ← b, ← c]
    generalize ops.foldl eptStep e = j
    cases x with
    | set o v =>
      cases o <;> simp [eptStep, Endpoint.setProperty, onEpt, saysRequired, saysOutputCount] <;>
        by_cases hv : v = 0 <;> simp [hv]
    | addDestination h n t =>
      simp only [eptStep, onEpt, Option.getD_none, Endpoint.addDestination]
      split <;> exact ⟨rfl, rfl, rfl⟩
    | addSource h n t =>
      simp only [eptStep, onEpt, Option.getD_none, Endpoint.addSource]
      split <;> exact ⟨rfl, rfl, rfl⟩
    | remove h =>
      simp only [eptStep, onEpt, Option.getD_none, Endpoint.removeTarget, Endpoint.dropWhere]
      repeat' split
      all_goals exact ⟨rfl, rfl, rfl⟩
    | disconnect h =>
      simp only [eptStep, onEpt, Option.getD_none, Endpoint.disconnectFederate, Endpoint.dropWhere]
      repeat' split
      all_goals exact ⟨rfl, rfl, rfl⟩

theorem newEpt_opts (g : Flags) : (newEpt g).targetInfo = [] ∧ (newEpt g).sources = [] ∧ (newEpt g).targets = [] ∧
    (newEpt g).required = g.req ∧ (newEpt g).requiredConns = g.count ∧ (newEpt g).targeted = g.targeted := by
  obtain ⟨a, b, c, d⟩ := g
  cases a <;> cases b <;> cases c <;> cases d <;> exact ⟨rfl, rfl, rfl, rfl, rfl, rfl⟩

end Verif.Checks
