import Verif.Props.TranslatorsSpec
/-! C65: what a translator makes of messages and values. -/
namespace Verif
namespace Trans

theorem snoc_ind {α : Type} {P : List α → Prop} (h0 : P []) (h1 : ∀ l a, P l → P (l ++ [a])) : ∀ l, P l := by
  intro l
  have h : ∀ r : List α, P r.reverse := by
    intro r
    induction r with
    | nil => exact h0
    | cons a r ih => rw [List.reverse_cons]; exact h1 _ _ ih
  rw [← List.reverse_reverse l]; exact h _

/-- one translator after some commands -/
def after (key : String) (l : List Cmd) : Tr := l.foldl (fun t c => (t.handle ⟨0, 0⟩ c).1) { key := key }

theorem handle_state (g g' : GHandle) (t : Tr) (c : Cmd) : (t.handle g c).1 = (t.handle g' c).1 := by
  cases c <;> rfl

theorem after_snoc (key : String) (l : List Cmd) (c : Cmd) (g : GHandle) :
    after key (l ++ [c]) = ((after key l).handle g c).1 := by
  rw [handle_state g ⟨0, 0⟩]; simp [after]

theorem after_key (key : String) (l : List Cmd) : (after key l).key = key := by
  induction l using snoc_ind with
  | h0 => rfl
  | h1 l c ih => rw [after_snoc key l c ⟨0, 0⟩]; cases c <;> exact ih

theorem after_op (key : String) (l : List Cmd) : (after key l).op = l.foldl opSet none := by
  induction l using snoc_ind with
  | h0 => rfl
  | h1 l c ih =>
    rw [after_snoc key l c ⟨0, 0⟩, List.foldl_append]
    cases c <;> first | exact ih | rfl

theorem after_subs (key : String) (l : List Cmd) :
    ((after key l).pub.subscribers.map (·.1)).Nodup ∧
      ∀ h, h ∈ (after key l).pub.subscribers.map (·.1) ↔ Subscribed h l := by
  induction l using snoc_ind with
  | h0 => exact ⟨List.nodup_nil, fun h => by simp [after, Subscribed]⟩
  | h1 l c ih =>
    obtain ⟨hn, hm⟩ := ih
    have hw : ∀ h, Subscribed h (l ++ [c]) ↔ subs h (l.foldl (subs h) false) c = true := by
      intro h; simp [Subscribed]
    rw [after_snoc key l c ⟨0, 0⟩]
    generalize hp : after key l = t at hn hm ⊢
    cases c with
    | addSubscriber h' n =>
      have hw' : ∀ h, Subscribed h (l ++ [.addSubscriber h' n]) ↔ h ∈ t.pub.subscribers.map (·.1) ∨ h = h' := by
        intro h; rw [hw, hm]
        simp only [subs, Subscribed, Bool.or_eq_true, beq_iff_eq]
        exact ⟨fun h1 => h1.elim .inl fun h1 => .inr h1.symm, fun h1 => h1.elim .inl fun h1 => .inr h1.symm⟩
      simp only [Tr.handle, Pub.addSubscriber]
      split
      · next h1 =>
        rw [List.any_eq_true] at h1
        obtain ⟨s, h1, h2⟩ := h1
        have h2 : s.1 = h' := by simpa using h2
        refine ⟨hn, fun h => ?_⟩
        rw [hw']
        constructor
        · exact .inl
        · rintro (h3 | rfl)
          · exact h3
          · exact List.mem_map.2 ⟨s, h1, h2⟩
      · next h1 =>
        have h1 : h' ∉ t.pub.subscribers.map (·.1) := by
          intro h2
          obtain ⟨s, h2, h3⟩ := List.mem_map.1 h2
          exact h1 (List.any_eq_true.2 ⟨s, h2, by simpa using h3⟩)
        simp only [List.map_append, List.map_cons, List.map_nil]
        refine ⟨?_, fun h => ?_⟩
        · rw [List.nodup_append]
          exact ⟨hn, by simp, fun a h4 b h5 h6 => h1 (by simp at h5; subst h5; subst h6; exact h4)⟩
        · rw [hw']; simp only [List.mem_append, List.mem_singleton]
    | removeSubscriber h' =>
      have hw' : ∀ h, Subscribed h (l ++ [.removeSubscriber h']) ↔ h ∈ t.pub.subscribers.map (·.1) ∧ h ≠ h' := by
        intro h; rw [hw, hm]
        simp only [subs, Subscribed, Bool.and_eq_true, bne_iff_ne, ne_eq]
        exact ⟨fun ⟨h1, h2⟩ => ⟨h1, fun h => h2 h.symm⟩, fun ⟨h1, h2⟩ => ⟨h1, fun h => h2 h.symm⟩⟩
      simp only [Tr.handle, Pub.removeSubscriber]
      refine ⟨?_, fun h => ?_⟩
      · exact hn.sublist ((List.filter_sublist).map _)
      · rw [hw']
        simp only [List.mem_map, List.mem_filter]
        constructor
        · rintro ⟨s, ⟨h1, h2⟩, rfl⟩
          exact ⟨⟨s, h1, rfl⟩, by simpa using h2⟩
        · rintro ⟨⟨s, h1, rfl⟩, h2⟩
          exact ⟨s, ⟨h1, by simpa using h2⟩, rfl⟩
    | _ => exact ⟨hn, fun h => by rw [hw]; exact hm h⟩

/-- the endpoint's two lists of targets agree, and name each endpoint once -/
def EptOk (e : Endpoint) : Prop :=
  e.targets = e.targetInfo.map (fun t => (t.id, t.key)) ∧ (e.targetInfo.map (·.id)).Nodup

theorem removeTarget_ok (e : Endpoint) (h : GHandle) (ok : EptOk e) :
    EptOk (e.removeTarget h) ∧ (e.removeTarget h).targets = e.targets.filter (fun d => !decide (d.1 = h)) := by
  obtain ⟨h1, h2⟩ := ok
  have key : ∀ e1 : Endpoint, ∀ p : EInfo → Bool,
      (if e1.sources.isEmpty then e1 else { e1 with sources := e1.sources.filter p }).targets = e1.targets ∧
      (if e1.sources.isEmpty then e1 else { e1 with sources := e1.sources.filter p }).targetInfo = e1.targetInfo := by
    intro e1 p; split <;> exact ⟨rfl, rfl⟩
  have hf : e.targets.filter (fun d => !decide (d.1 = h)) =
      (e.targetInfo.filter (fun t => !decide (t.id = h))).map (fun t => (t.id, t.key)) := by
    rw [h1, List.filter_map]; rfl
  unfold Endpoint.removeTarget Endpoint.dropWhere EptOk
  simp only [key]
  by_cases he : e.targetInfo.isEmpty = true
  · have he' : e.targetInfo = [] := by simpa using he
    have ht : e.targets = [] := by rw [h1, he']; rfl
    simp [he', ht]
  · rw [if_neg he]
    by_cases hl : (e.targetInfo.filter (fun t => !decide (t.id = h))).length ≠ e.targetInfo.length
    · rw [if_pos hl]
      exact ⟨⟨rfl, h2.sublist ((List.filter_sublist).map _)⟩, by rw [hf]⟩
    · rw [if_neg hl]
      have hfe : e.targetInfo.filter (fun t => !decide (t.id = h)) = e.targetInfo :=
        List.filter_sublist.eq_of_length (by simpa using hl)
      exact ⟨⟨h1, h2⟩, by rw [hf, hfe, h1]⟩

theorem addDestination_ok (e : Endpoint) (h : GHandle) (n ty : String) (ok : EptOk e) :
    EptOk (e.addDestination h n ty) ∧ (e.addDestination h n ty).targets =
      if h ∈ e.targets.map (·.1) then e.targets else e.targets ++ [(h, n)] := by
  obtain ⟨h1, h2⟩ := ok
  have hm : h ∈ e.targets.map (·.1) ↔ e.targetInfo.any (fun t => decide (t.id = h)) = true := by
    rw [h1, List.any_eq_true]
    simp [List.mem_map]
  unfold Endpoint.addDestination
  by_cases ha : e.targetInfo.any (fun t => decide (t.id = h)) = true
  · rw [if_pos ha, if_pos (hm.2 ha)]
    exact ⟨⟨h1, h2⟩, rfl⟩
  · rw [if_neg ha, if_neg fun h => ha (hm.1 h)]
    refine ⟨⟨rfl, ?_⟩, ?_⟩
    · simp only [List.map_append, List.map_cons, List.map_nil]
      rw [List.nodup_append]
      refine ⟨h2, by simp, fun a h4 b h5 h6 => ?_⟩
      simp at h5
      subst h5; subst h6
      apply ha
      obtain ⟨t, h7, h8⟩ := List.mem_map.1 h4
      exact List.any_eq_true.2 ⟨t, h7, by simpa using h8⟩
    · simp [h1]

theorem nodup_fst {α β : Type} {l : List (α × β)} (h : (l.map (·.1)).Nodup) {a : α} {b c : β}
    (hb : (a, b) ∈ l) (hc : (a, c) ∈ l) : b = c := by
  induction l with
  | nil => simp at hb
  | cons x l ih =>
    simp only [List.map_cons, List.nodup_cons] at h
    rcases List.mem_cons.1 hb with hb' | hb'
    · subst hb'
      rcases List.mem_cons.1 hc with hc | hc
      · exact (Prod.mk.inj hc).2.symm
      · exact absurd (List.mem_map.2 ⟨_, hc, rfl⟩) h.1
    · rcases List.mem_cons.1 hc with hc' | hc'
      · subst hc'
        exact absurd (List.mem_map.2 ⟨(a, b), hb', rfl⟩ : a ∈ l.map (·.1)) h.1
      · exact ih h.2 hb' hc'

theorem after_targets (key : String) (l : List Cmd) :
    EptOk (after key l).ept ∧ ∀ h n, (h, n) ∈ (after key l).ept.targets ↔ Target h n l := by
  induction l using snoc_ind with
  | h0 => exact ⟨⟨rfl, List.nodup_nil⟩, fun h n => by simp [after, Target]⟩
  | h1 l c ih =>
    obtain ⟨ok, hm⟩ := ih
    have hw : ∀ h n, Target h n (l ++ [c]) ↔ dests h (l.foldl (dests h) none) c = some n := by
      intro h n; simp [Target]
    rw [after_snoc key l c ⟨0, 0⟩]
    generalize after key l = t at ok hm ⊢
    cases c with
    | addEndpoint h' n' ty d =>
      cases d with
      | false =>
        have : (t.ept.addSource h' n' ty).targets = t.ept.targets ∧
            (t.ept.addSource h' n' ty).targetInfo = t.ept.targetInfo := by
          unfold Endpoint.addSource; split <;> exact ⟨rfl, rfl⟩
        refine ⟨?_, fun h n => ?_⟩
        · simp only [Tr.handle, EptOk, Bool.false_eq_true, if_false, this]
          exact ok
        · rw [hw]
          simp only [Tr.handle, Bool.false_eq_true, if_false, this, dests, and_false]
          exact hm h n
      | true =>
        obtain ⟨ok', ht⟩ := addDestination_ok t.ept h' n' ty ok
        refine ⟨by simpa [Tr.handle] using ok', fun h n => ?_⟩
        rw [hw]
        simp only [Tr.handle, if_true, ht, dests, and_true]
        by_cases hh : h' = h
        · subst hh
          rw [if_pos rfl]
          cases hf : l.foldl (dests h') none with
          | none =>
            have hno : h' ∉ t.ept.targets.map (·.1) := by
              intro h3
              obtain ⟨⟨a, b⟩, h5, h4⟩ := List.mem_map.1 h3
              simp only [] at h4
              subst h4
              have := (hm a b).1 h5
              simp only [Target] at this
              rw [hf] at this; simp at this
            rw [if_neg hno]
            simp only [List.mem_append, List.mem_singleton, Prod.mk.injEq, true_and, Option.getD_none,
              Option.some.injEq]
            constructor
            · rintro (h3 | rfl)
              · exact absurd (List.mem_map.2 ⟨_, h3, rfl⟩) hno
              · rfl
            · rintro rfl; exact .inr rfl
          | some m =>
            have hyes : (h', m) ∈ t.ept.targets := (hm h' m).2 hf
            rw [if_pos (List.mem_map.2 ⟨_, hyes, rfl⟩), hm]
            simp only [Target, hf, Option.getD_some]
        · rw [if_neg hh]
          have : (h, n) ∈ (if h' ∈ t.ept.targets.map (·.1) then t.ept.targets else t.ept.targets ++ [(h', n')]) ↔
              (h, n) ∈ t.ept.targets := by
            split
            · rfl
            · simp only [List.mem_append, List.mem_singleton, Prod.mk.injEq]
              constructor
              · rintro (h3 | ⟨h3, -⟩)
                · exact h3
                · exact absurd h3.symm hh
              · exact .inl
          rw [this]; exact hm h n
    | removeEndpoint h' =>
      obtain ⟨ok', ht⟩ := removeTarget_ok t.ept h' ok
      refine ⟨ok', fun h n => ?_⟩
      rw [hw]
      simp only [Tr.handle, ht, dests, List.mem_filter]
      by_cases hh : h' = h
      · subst hh; simp
      · rw [if_neg hh]
        have : h ≠ h' := fun h3 => hh h3.symm
        simp only [this, decide_false, Bool.not_false, and_true]
        exact hm h n
    | _ => exact ⟨ok, fun h n => by rw [hw]; exact hm h n⟩

/-! ### Names of publications -/

theorem sourceName_append (h : GHandle) (l : List Src) (s : Src) (hn : ∀ t ∈ l, t.handle ≠ h) :
    sourceName h (l ++ [s]) = if h = s.handle then s.key else "" := by
  induction l with
  | nil => rfl
  | cons t l ih =>
    have h1 : h ≠ t.handle := fun h' => hn t (by simp) h'.symm
    simp only [List.cons_append, sourceName, if_neg h1]
    exact ih fun t ht => hn t (List.mem_cons_of_mem _ ht)

theorem sourceName_append_ne (h : GHandle) (l : List Src) (s : Src) (hs : h ≠ s.handle) :
    sourceName h (l ++ [s]) = sourceName h l := by
  induction l with
  | nil => simp [sourceName, hs]
  | cons t l ih => simp only [List.cons_append, sourceName, ih]

theorem sourceName_none (h : GHandle) (l : List Src) (hn : ∀ t ∈ l, t.handle ≠ h) : sourceName h l = "" := by
  induction l with
  | nil => rfl
  | cons t l ih =>
    have h1 : h ≠ t.handle := fun h' => hn t (by simp) h'.symm
    simp only [sourceName, if_neg h1]
    exact ih fun t ht => hn t (List.mem_cons_of_mem _ ht)

theorem sourceName_map (h : GHandle) {l l' : List Src}
    (hl : l.map (fun s => (s.handle, s.key)) = l'.map (fun s => (s.handle, s.key))) :
    sourceName h l = sourceName h l' := by
  induction l generalizing l' with
  | nil => cases l' with
    | nil => rfl
    | cons t l' => simp at hl
  | cons s l ih => cases l' with
    | nil => simp at hl
    | cons t l' =>
      simp only [List.map_cons, List.cons.injEq, Prod.mk.injEq] at hl
      simp only [sourceName, hl.1.1, hl.1.2, ih hl.2]

theorem reconnect_keeps (h : GHandle) (u : String) : ∀ (l : List Src) (r : List Src × Bool),
    Input.reconnect h u l = some r →
      r.1.map (fun s => (s.handle, s.key)) = l.map (fun s => (s.handle, s.key)) ∧ ∃ s ∈ l, s.handle = h
  | [], r, hr => by simp [Input.reconnect] at hr
  | s :: l, r, hr => by
    simp only [Input.reconnect] at hr
    split at hr
    · next h1 =>
      refine ⟨?_, s, by simp, h1⟩
      split at hr <;> (simp only [Option.some.injEq] at hr; subst hr; rfl)
    · cases hq : Input.reconnect h u l with
      | none => rw [hq] at hr; simp at hr
      | some q =>
        rw [hq] at hr
        simp only [Option.map_some, Option.some.injEq] at hr
        subst hr
        obtain ⟨h1, t, h2, h3⟩ := reconnect_keeps h u l q hq
        exact ⟨by simp [h1], t, List.mem_cons_of_mem _ h2, h3⟩

theorem reconnect_none (h : GHandle) (u : String) : ∀ (l : List Src), Input.reconnect h u l = none →
    ∀ t ∈ l, t.handle ≠ h
  | [], _, t, ht => by simp at ht
  | s :: l, hr, t, ht => by
    simp only [Input.reconnect] at hr
    split at hr
    · split at hr <;> simp at hr
    · next h1 =>
      have hq : Input.reconnect h u l = none := by
        cases hq : Input.reconnect h u l with
        | none => rfl
        | some q => rw [hq] at hr; simp at hr
      rcases List.mem_cons.1 ht with rfl | ht
      · exact h1
      · exact reconnect_none h u l hq t ht

theorem removeLoop_keeps (p : Src → Bool) (m : Int) : ∀ (l : List Src) (q : UInt64),
    (Input.removeLoop p m l q).1.map (fun s => (s.handle, s.key)) = l.map (fun s => (s.handle, s.key))
  | [], _ => rfl
  | s :: l, q => by
    simp only [Input.removeLoop]
    split
    · simp only [Input.srcRemove, List.map_cons, removeLoop_keeps p m l]
      congr 1
      simp only [Input.deactivate]; split <;> rfl
    · simp only [List.map_cons, removeLoop_keeps p m l]

theorem handles_of_map {l l' : List Src}
    (hl : l.map (fun s => (s.handle, s.key)) = l'.map (fun s => (s.handle, s.key))) (h : GHandle) :
    (∀ s ∈ l, s.handle ≠ h) ↔ ∀ s ∈ l', s.handle ≠ h := by
  have : l.map (·.handle) = l'.map (·.handle) := by
    have := congrArg (List.map Prod.fst) hl
    simpa [List.map_map, Function.comp_def] using this
  have e : ∀ l : List Src, (∀ s ∈ l, s.handle ≠ h) ↔ h ∉ l.map (·.handle) := by
    intro l; simp only [List.mem_map]
    exact ⟨fun h1 ⟨s, h2, h3⟩ => h1 s h2 h3, fun h1 s h2 h3 => h1 ⟨s, h2, h3⟩⟩
  rw [e, e, this]

theorem after_name (key : String) (l : List Cmd) (h : GHandle) :
    sourceName h (after key l).ipt.srcs = (l.foldl (pubName h) none).getD "" ∧
      (l.foldl (pubName h) none = none ↔ ∀ s ∈ (after key l).ipt.srcs, s.handle ≠ h) := by
  induction l using snoc_ind with
  | h0 => exact ⟨rfl, by simp [after]⟩
  | h1 l c ih =>
    obtain ⟨h1, h2⟩ := ih
    rw [after_snoc key l c ⟨0, 0⟩, List.foldl_append]
    generalize hw : l.foldl (pubName h) none = w at h1 h2 ⊢
    generalize after key l = t at h1 h2 ⊢
    cases c with
    | removePublication h' =>
      have hk := removeLoop_keeps (fun s => decide (s.handle = h')) 0 t.ipt.srcs t.ipt.queued
      refine ⟨?_, ?_⟩
      · exact (sourceName_map h hk).trans h1
      · exact h2.trans (handles_of_map hk h).symm
    | addPublisher h' n ty u =>
      simp only [Tr.handle, Input.addSource, List.foldl_cons, List.foldl_nil, pubName]
      cases hr : Input.reconnect h' u t.ipt.srcs with
      | some r =>
        obtain ⟨hk, s, hs, hs'⟩ := reconnect_keeps h' u _ r hr
        simp only []
        have hq := handles_of_map hk h
        rw [sourceName_map h hk, hq]
        split
        · next hh =>
          subst hh
          have : w ≠ none := fun hw0 => h2.1 hw0 s hs hs'
          cases w with
          | none => exact absurd rfl this
          | some m => exact ⟨h1, by simpa using h2⟩
        · exact ⟨h1, h2⟩
      | none =>
        have hn := reconnect_none h' u _ hr
        simp only []
        split
        · next hh =>
          subst hh
          have : w = none := h2.2 hn
          subst this
          rw [sourceName_append _ _ _ hn]
          refine ⟨by simp, ?_⟩
          simp only [Option.getD_none, List.mem_append, List.mem_singleton]
          constructor
          · intro h3; simp at h3
          · intro h3; exact absurd rfl (h3 _ (.inr rfl))
        · next hh =>
          rw [sourceName_append_ne _ _ _ (fun h3 => hh h3.symm)]
          refine ⟨h1, h2.trans ?_⟩
          simp only [List.mem_append, List.mem_singleton]
          constructor
          · rintro h3 s (h4 | rfl)
            · exact h3 s h4
            · exact hh
          · exact fun h3 s h4 => h3 s (.inl h4)
    | _ => exact ⟨h1, h2⟩

/-! ### All translators of a core -/

theorem run_append (f : Fed) (es es' : List Ev) :
    run f (es ++ es') = ((run (run f es).1 es').1, (run f es).2 ++ (run (run f es).1 es').2) := by
  induction es generalizing f with
  | nil => simp [run]
  | cons e es ih => simp only [List.cons_append, run, ih, List.append_assoc]

theorem run_snoc (f : Fed) (es : List Ev) (e : Ev) : (run f (es ++ [e])).1 = (step (run f es).1 e).1 := by
  rw [run_append]; rfl

/-- was the translator made -/
def made (g : GHandle) (es : List Ev) : Bool := (es.foldl (note g) (false, [])).1

theorem run_state (es : List Ev) (g : GHandle) :
    (made g es = false ∧ (run none' es).1 g = none ∧ hist g es = []) ∨
    (made g es = true ∧ ∃ key, (run none' es).1 g = some (after key (hist g es))) := by
  induction es using snoc_ind with
  | h0 => exact .inl ⟨rfl, rfl, rfl⟩
  | h1 es e ih =>
    have hh : (made g (es ++ [e]), hist g (es ++ [e])) =
        (match e with
          | .create g' _ => if g' = g then (true, hist g es) else (made g es, hist g es)
          | .cmd g' c => if g' = g ∧ made g es = true then (true, hist g es ++ [c]) else (made g es, hist g es)) := by
      simp only [made, hist, List.foldl_append, List.foldl_cons, List.foldl_nil]
      have hp : ∀ p : Bool × List Cmd, ((note g p e).1, (note g p e).2) =
          (match e with
            | .create g' _ => if g' = g then (true, p.2) else (p.1, p.2)
            | .cmd g' c => if g' = g ∧ p.1 = true then (true, p.2 ++ [c]) else (p.1, p.2)) := by
        intro p; cases e <;> rfl
      exact hp _
    have hm := congrArg Prod.fst hh
    have hl := congrArg Prod.snd hh
    simp only [] at hm hl
    rw [run_snoc, hm, hl]
    cases e with
    | create g' k =>
      simp only [step]
      by_cases hg : g' = g
      · subst hg
        simp only [if_true]
        right
        rcases ih with ⟨h1, h2, h3⟩ | ⟨h1, key, h2⟩
        · exact ⟨trivial, k, by rw [h2, h3]; rfl⟩
        · exact ⟨trivial, key, by rw [h2]⟩
      · have : ¬g = g' := fun h => hg h.symm
        simp only [if_neg hg, if_neg this]
        exact ih
    | cmd g' c =>
      by_cases hg : g' = g
      · subst hg
        rcases ih with ⟨h1, h2, h3⟩ | ⟨h1, key, h2⟩
        · left
          simp only [step, h2, h1, h3]
          simp
        · right
          simp only [step, h2, h1, and_self, if_true]
          exact ⟨trivial, key, by rw [after_snoc key _ c g']⟩
      · simp only [hg, false_and, if_false]
        have : ¬g = g' := fun h => hg h.symm
        simp only [step]
        split
        · exact ih
        · simpa only [if_neg this] using ih

/-- C65: a message to a translator becomes one value for each input connected to it then, no more and no less - the
value its operator makes of it, in the name of the translator - unless there is no operator or no value -/
theorem C65_message (es : List Ev) (g : GHandle) (m : Filt.Msg) :
    ∃ to : List GHandle, to.Nodup ∧ (∀ h, h ∈ to ↔ Subscribed h (hist g es)) ∧
      (run none' (es ++ [.cmd g (.message m)])).2 = (run none' es).2 ++
        match (hist g es).foldl opSet none with
        | none => []
        | some o => if o.toValue m = [] then [] else to.map fun h => .pub g h (o.valueTime m.time) (o.toValue m) := by
  rw [run_append]
  simp only [run, List.append_nil]
  rcases run_state es g with ⟨-, h2, h3⟩ | ⟨-, key, h2⟩
  · refine ⟨[], List.nodup_nil, fun h => by simp [h3, Subscribed], ?_⟩
    simp only [step, h2, h3]
    rfl
  · obtain ⟨hn, hs⟩ := after_subs key (hist g es)
    refine ⟨_, hn, hs, ?_⟩
    congr 1
    simp only [step, h2, Tr.handle, Tr.onMessage, after_op]
    cases (hist g es).foldl opSet none with
    | none => rfl
    | some o =>
      simp only []
      by_cases hs : (after key (hist g es)).pub.subscribers = []
      · simp [hs]
      · rw [if_neg hs]
        split
        · rfl
        · rw [List.map_map]; rfl

/-- C65: a value that comes to a translator becomes one message for each endpoint connected to it then, no more and no
less - the message its operator makes of it, from the translator to that endpoint, with the publication as its
original source - unless there is no operator or no message -/
theorem C65_value (es : List Ev) (g src : GHandle) (t : Int) (v : List Nat) :
    ∃ to : List (GHandle × String), (to.map (·.1)).Nodup ∧ (∀ h n, (h, n) ∈ to ↔ Target h n (hist g es)) ∧
      ∃ key, (∀ tr, (run none' es).1 g = some tr → tr.key = key) ∧
      (run none' (es ++ [.cmd g (.publish src t v)])).2 = (run none' es).2 ++
        match ((hist g es).foldl opSet none).bind fun o => (o.toMessage v).map fun m => (o, m) with
        | none => []
        | some (o, m) => to.map fun d => .send src d.1 { m with
            dest := d.2, source := key, osrc := ((hist g es).foldl (pubName src) none).getD "",
            time := o.messageTime t } := by
  rw [run_append]
  simp only [run, List.append_nil]
  rcases run_state es g with ⟨-, h2, h3⟩ | ⟨-, key, h2⟩
  · refine ⟨[], List.nodup_nil, fun h n => by simp [h3, Target], "", by simp [h2], ?_⟩
    simp only [step, h2, h3]
    rfl
  · obtain ⟨⟨h4, h5⟩, h6⟩ := after_targets key (hist g es)
    refine ⟨(after key (hist g es)).ept.targets, ?_, h6, key, ?_, ?_⟩
    · rw [h4, List.map_map]; exact h5
    · intro tr h
      rw [h2] at h
      simp only [Option.some.injEq] at h
      rw [← h, after_key]
    · congr 1
      simp only [step, h2, Tr.handle, Tr.onValue, after_op, after_key, (after_name key (hist g es) src).1]
      cases (hist g es).foldl opSet none with
      | none => rfl
      | some o =>
        simp only [Option.bind_some]
        cases o.toMessage v with
        | none => rfl
        | some m => rfl

/-- C65: nothing else makes a translator send anything -/
theorem C65_only (es : List Ev) (g : GHandle) (c : Cmd) (hm : ∀ m, c ≠ .message m) (hv : ∀ s t v, c ≠ .publish s t v) :
    (run none' (es ++ [.cmd g c])).2 = (run none' es).2 := by
  rw [run_append]
  simp only [run, List.append_nil, step]
  split
  · simp
  · cases c <;> first | exact absurd rfl (hm _) | exact absurd rfl (hv _ _ _) | simp [Tr.handle]

/-- C65: a translator is not affected by what happens to the others -/
theorem C65_apart (es : List Ev) (g g' : GHandle) (c : Cmd) (h : g' ≠ g) :
    (run none' (es ++ [.cmd g' c])).1 g = (run none' es).1 g ∧ hist g (es ++ [.cmd g' c]) = hist g es := by
  constructor
  · rw [run_snoc]
    simp only [step]
    split
    · rfl
    · exact if_neg (fun h' => h h'.symm)
  · simp [hist, note, List.foldl_append, h]

/-- C65: with operators that do not compute times of their own, what is sent is later than what it was made of -/
theorem C65_later (o : Op) (h1 : o.valueTime = fun t => t + 1) (h2 : o.messageTime = fun t => t + 1) (t : Int) :
    t < o.valueTime t ∧ t < o.messageTime t := by
  rw [h1, h2]; constructor <;> (show t < t + 1; omega)

/-- C65: through two translators with binary operators, a message that is not empty arrives with its content -/
theorem C65_binary (m : Filt.Msg) :
    (binaryOp.toMessage (binaryOp.toValue m)).map (·.data) = some m.data := rfl

/-- closing a translator does nothing -/
theorem C65_close_ignored (es : List Ev) (g : GHandle) :
    run none' (es ++ [.cmd g .close]) = run none' es := by
  rw [run_append]
  have : run (run none' es).1 [.cmd g .close] = ((run none' es).1, []) := by
    simp only [run, step]
    split
    · rfl
    · next t h =>
      simp only [Tr.handle, List.append_nil]
      congr 1
      funext g'
      split
      · next h1 => rw [h1, h]
      · rfl
  rw [this]
  simp

/-- a value from a publication that was disconnected is translated all the same -/
theorem C65_unconnected_source (es : List Ev) (g src : GHandle) (t : Int) (v : List Nat) :
    (run none' (es ++ [.cmd g (.removePublication src)] ++ [.cmd g (.publish src t v)])).2 =
      (run none' (es ++ [.cmd g (.publish src t v)])).2 := by
  have h0 : (run none' (es ++ [.cmd g (.removePublication src)])).2 = (run none' es).2 :=
    C65_only es g _ (by intro m h; cases h) (by intro a b c h; cases h)
  have e1 : ∀ es', (run none' (es' ++ [.cmd g (.publish src t v)])).2 =
      (run none' es').2 ++ (step (run none' es').1 (.cmd g (.publish src t v))).2 := by
    intro es'; rw [run_append]; simp [run]
  rw [e1, e1, h0]
  congr 1
  rw [run_snoc]
  generalize (run none' es).1 = f
  cases hf : f g with
  | none => simp [step, hf]
  | some tr =>
    have hk := removeLoop_keeps (fun s => decide (s.handle = src)) 0 tr.ipt.srcs tr.ipt.queued
    simp only [step, hf, if_true, Tr.handle, Tr.onValue]
    simp only [Input.removeSource, sourceName_map src hk]

end Trans
end Verif
