import Verif.Props.LogsSpec
/-! Log messages: the levels over a history, the targets, the buffer. -/
namespace Verif
namespace Logs

theorem snoc_ind {α : Type} {P : List α → Prop} (h0 : P []) (h1 : ∀ l x, P l → P (l ++ [x])) (l : List α) : P l := by
  rw [← List.reverse_reverse l]
  induction l.reverse with
  | nil => simpa using h0
  | cons x r ih => rw [List.reverse_cons]; exact h1 _ _ ih

theorem snoc_split {α : Type} {es a b : List α} {x e : α} (h : es ++ [x] = a ++ e :: b) :
    (b = [] ∧ es = a ∧ x = e) ∨ ∃ b', b = b' ++ [x] ∧ es = a ++ e :: b' := by
  rcases List.eq_nil_or_concat b with rfl | ⟨b', y, rfl⟩
  · left
    have := List.append_inj' h rfl
    simp_all
  · right
    rw [show a ++ e :: (b'.concat y) = (a ++ e :: b') ++ [y] by simp] at h
    have := List.append_inj' h rfl
    refine ⟨b', ?_, this.1⟩
    simp_all

theorem run_snoc (cb file : Bool) (es : List Ev) (x : Ev) : run cb file (es ++ [x]) = (run cb file es).step x := by
  simp [run, List.foldl_append]

theorem consoleOf_snoc (es : List Ev) (x : Ev) :
    consoleOf (es ++ [x]) = match x with | .levels c _ => c | _ => consoleOf es := by
  induction es with
  | nil => cases x <;> simp [consoleOf]
  | cons y es ih =>
    cases y with
    | levels c f =>
      cases x with
      | levels c' f' => simpa [consoleOf] using ih
      | _ => simp only [List.cons_append, consoleOf, List.all_append, ih]; simp
    | _ => simpa [consoleOf] using ih

theorem fileOf_snoc (es : List Ev) (x : Ev) :
    fileOf (es ++ [x]) = match x with | .levels _ f => f | _ => fileOf es := by
  induction es with
  | nil => cases x <;> simp [fileOf]
  | cons y es ih =>
    cases y with
    | levels c f =>
      cases x with
      | levels c' f' => simpa [fileOf] using ih
      | _ => simp only [List.cons_append, fileOf, List.all_append, ih]; simp
    | _ => simpa [fileOf] using ih

theorem wants_snoc (d : Nat) (es : List Ev) (x : Ev) :
    wants d (es ++ [x]) = match x with | .remote d' l => if d' = d then some l else wants d es | _ => wants d es := by
  induction es with
  | nil => cases x <;> simp [wants]
  | cons y es ih =>
    cases y with
    | remote d2 l2 =>
      simp only [List.cons_append, wants, ih]
      cases x with
      | remote d' l => by_cases h : d' = d <;> simp [h]
      | _ => simp
    | _ => simpa [wants] using ih

/-! ### targets -/

def lookup (d : Nat) (ts : List (Nat × Int)) : Option Int := (ts.find? fun t => t.1 == d).map (·.2)

theorem retarget_keys (d : Nat) (l : Int) (ts : List (Nat × Int)) : (Mgr.retarget d l ts).map (·.1) = ts.map (·.1) := by
  induction ts with
  | nil => rfl
  | cons t ts ih =>
    simp only [Mgr.retarget]
    split
    · rename_i h; simp [h]
    · simp [ih]

theorem lookup_retarget (d : Nat) (l : Int) (ts : List (Nat × Int)) (h : ts.any (fun t => t.1 == d) = true) (e : Nat) :
    lookup e (Mgr.retarget d l ts) = if d = e then some l else lookup e ts := by
  induction ts with
  | nil => simp at h
  | cons t ts ih =>
    simp only [Mgr.retarget]
    by_cases ht : t.1 = d
    · rw [if_pos ht]
      by_cases hd : d = e
      · simp [lookup, hd]
      · simp [lookup, hd, ht]
    · rw [if_neg ht]
      have h' : ts.any (fun t => t.1 == d) = true := by simpa [ht] using h
      have := ih h'
      unfold lookup at this ⊢
      by_cases he : t.1 = e
      · have : d ≠ e := fun hh => ht (by rw [he, hh])
        simp [he, this]
      · simp only [List.find?_cons]
        have hb : (t.1 == e) = false := by simp [he]
        simp only [hb]
        exact this

theorem lookup_append (d : Nat) (l : Int) (ts : List (Nat × Int)) (h : ts.any (fun t => t.1 == d) = false) (e : Nat) :
    lookup e (ts ++ [(d, l)]) = if d = e then some l else lookup e ts := by
  unfold lookup
  rw [List.find?_append]
  by_cases hd : d = e
  · subst hd
    have : ts.find? (fun t => t.1 == d) = none := by
      rw [List.find?_eq_none]
      intro t ht hc
      have := List.any_eq_false.1 h t ht
      exact this hc
    simp [this]
  · have : ([(d, l)] : List (Nat × Int)).find? (fun t => t.1 == e) = none := by simp [hd]
    rw [this, Option.or_none, if_neg hd]

theorem lookup_mem {ts : List (Nat × Int)} (hn : (ts.map (·.1)).Nodup) (d : Nat) (l : Int) :
    (d, l) ∈ ts ↔ lookup d ts = some l := by
  induction ts with
  | nil => simp [lookup]
  | cons t ts ih =>
    simp only [List.map_cons, List.nodup_cons] at hn
    have ih := ih hn.2
    unfold lookup at ih ⊢
    simp only [List.find?_cons, List.mem_cons]
    by_cases ht : t.1 = d
    · have hb : (t.1 == d) = true := by simp [ht]
      simp only [hb, Option.map_some, Option.some.injEq]
      constructor
      · rintro (h | h)
        · rw [← h]
        · exact absurd (List.mem_map.2 ⟨(d, l), h, ht.symm⟩) hn.1
      · intro h; left; rw [← h, ← ht]
    · have hb : (t.1 == d) = false := by simp [ht]
      simp only [hb]
      constructor
      · rintro (h | h)
        · exact absurd (by rw [← h]) ht
        · exact ih.1 h
      · intro h; exact .inr (ih.2 h)

theorem foldl_max (ts : List (Nat × Int)) (a : Int) :
    a ≤ ts.foldl (fun a t => if t.2 > a then t.2 else a) a ∧
      ∀ t ∈ ts, t.2 ≤ ts.foldl (fun a t => if t.2 > a then t.2 else a) a := by
  induction ts generalizing a with
  | nil => simp
  | cons t ts ih =>
    simp only [List.foldl_cons]
    obtain ⟨h1, h2⟩ := ih (if t.2 > a then t.2 else a)
    refine ⟨?_, ?_⟩
    · refine Int.le_trans ?_ h1
      split <;> omega
    · intro u hu
      rcases List.mem_cons.1 hu with rfl | hu
      · refine Int.le_trans ?_ h1
        split <;> omega
      · exact h2 u hu

/-- what the state of a manager has to do with its history -/
structure Tracks (cb file : Bool) (es : List Ev) (s : Mgr) : Prop where
  cons : s.consoleLevel = consoleOf es
  fil : s.fileLevel = fileOf es
  tgt : ∀ d, lookup d s.targets = wants d es
  nodup : (s.targets.map (·.1)).Nodup
  maxC : s.consoleLevel ≤ s.maxLevel
  maxF : s.fileLevel ≤ s.maxLevel
  maxT : NoneRaised es → ∀ t ∈ s.targets, t.2 ≤ s.maxLevel
  call : s.hasCallback = cb
  file : s.hasFile = file

theorem updateMax_ge (s : Mgr) : s.consoleLevel ≤ s.updateMax.maxLevel ∧ s.fileLevel ≤ s.updateMax.maxLevel ∧
    ∀ t ∈ s.targets, t.2 ≤ s.updateMax.maxLevel := by
  obtain ⟨h1, h2⟩ := foldl_max s.targets (max s.consoleLevel s.fileLevel)
  refine ⟨?_, ?_, h2⟩
  · exact Int.le_trans (Int.le_max_left _ _) h1
  · exact Int.le_trans (Int.le_max_right _ _) h1

theorem noneRaised_snoc {es : List Ev} {x : Ev} (h : NoneRaised (es ++ [x])) (hx : ∀ c f, x ≠ .levels c f) : NoneRaised es := by
  intro a d l b he
  rcases h a d l (b ++ [x]) (by rw [he]; simp) with h | h | ⟨c, f, h⟩
  · exact .inl h
  · exact .inr (.inl h)
  · rcases List.mem_append.1 h with h | h
    · exact .inr (.inr ⟨c, f, h⟩)
    · exact absurd (List.mem_singleton.1 h).symm (hx c f)

theorem log_fields (s : Mgr) (m : Nat) (l : Int) (r : Bool) : ∃ b, s.log m l r = { s with buf := b } := by
  unfold Mgr.log
  split
  · exact ⟨_, rfl⟩
  · exact ⟨s.buf, rfl⟩

theorem tracks_buf {cb file : Bool} {es : List Ev} {s : Mgr} (h : Tracks cb file es s) (x : Ev) (b : Buf)
    (hl : ∀ c f, x ≠ .levels c f) (hr : ∀ d l, x ≠ .remote d l) : Tracks cb file (es ++ [x]) { s with buf := b } := by
  refine ⟨?_, ?_, ?_, h.nodup, h.maxC, h.maxF, fun hn => h.maxT (noneRaised_snoc hn hl), h.call, h.file⟩
  · rw [consoleOf_snoc]
    cases x <;> first | exact h.cons | exact absurd rfl (hl _ _)
  · rw [fileOf_snoc]
    cases x <;> first | exact h.fil | exact absurd rfl (hl _ _)
  · intro d
    rw [wants_snoc]
    cases x <;> first | exact h.tgt d | exact absurd rfl (hr _ _)

theorem tracks (cb file : Bool) (es : List Ev) : Tracks cb file es (run cb file es) := by
  induction es using snoc_ind with
  | h0 => exact ⟨rfl, rfl, fun _ => rfl, by simp [run], by simp [run], by simp [run], by simp [run], rfl, rfl⟩
  | h1 es x ih =>
    rw [run_snoc]
    generalize run cb file es = s at ih
    cases x with
    | levels c f =>
      have hm := updateMax_ge { s with consoleLevel := c, fileLevel := f }
      refine ⟨by rw [consoleOf_snoc]; rfl, by rw [fileOf_snoc]; rfl, ?_, ih.nodup, hm.1, hm.2.1, fun _ => hm.2.2, ih.call, ih.file⟩
      intro d
      rw [wants_snoc]
      exact ih.tgt d
    | remote d l =>
      simp only [Mgr.step, Mgr.remote]
      split
      · rename_i hany
        refine ⟨by rw [consoleOf_snoc]; exact ih.cons, by rw [fileOf_snoc]; exact ih.fil, ?_, ?_, ih.maxC, ih.maxF, ?_, ih.call, ih.file⟩
        · intro e
          rw [wants_snoc]
          simp only [lookup_retarget d l s.targets hany e, ih.tgt e]
        · simp only [retarget_keys]; exact ih.nodup
        · intro hn t ht
          have hn' := noneRaised_snoc hn (by simp)
          simp only at ht ⊢
          have hnd : ((Mgr.retarget d l s.targets).map (·.1)).Nodup := by rw [retarget_keys]; exact ih.nodup
          have h1 := (lookup_mem hnd t.1 t.2).1 ht
          rw [lookup_retarget d l s.targets hany] at h1
          split at h1
          · rename_i hd
            simp only [Option.some.injEq] at h1
            rw [← h1]
            obtain ⟨u, hu, hud⟩ := List.any_eq_true.1 hany
            have hud : u.1 = d := by simpa using hud
            have hlk := (lookup_mem ih.nodup u.1 u.2).1 hu
            rw [hud, ih.tgt] at hlk
            rcases hn es d l [] rfl with h | ⟨l0, h, hl⟩ | ⟨c, f, h⟩
            · rw [h] at hlk; cases hlk
            · rw [h] at hlk
              have := ih.maxT hn' u hu
              simp only [Option.some.injEq] at hlk
              omega
            · cases h
          · exact ih.maxT hn' t ((lookup_mem ih.nodup t.1 t.2).2 h1)
      · rename_i hany
        have hany : s.targets.any (fun t => t.1 == d) = false := Bool.eq_false_iff.2 hany
        have hm := updateMax_ge { s with targets := s.targets ++ [(d, l)] }
        refine ⟨by rw [consoleOf_snoc]; exact ih.cons, by rw [fileOf_snoc]; exact ih.fil, ?_, ?_, hm.1, hm.2.1, fun _ => hm.2.2, ih.call, ih.file⟩
        · intro e
          rw [wants_snoc]
          have := lookup_append d l s.targets hany e
          rw [ih.tgt e] at this
          exact this
        · show ((s.targets ++ [(d, l)]).map (·.1)).Nodup
          rw [List.map_append, List.nodup_append]
          refine ⟨ih.nodup, by simp, ?_⟩
          intro a ha b hb
          simp at hb
          obtain ⟨t, ht, rfl⟩ := List.mem_map.1 ha
          have := List.any_eq_false.1 hany t ht
          rw [hb]; simpa using this
    | log m l r =>
      obtain ⟨b, hb⟩ := log_fields s m l r
      simp only [Mgr.step, hb]
      exact tracks_buf ih _ b (by simp) (by simp)
    | resize n => exact tracks_buf ih _ _ (by simp) (by simp)
    | enable on => exact tracks_buf ih _ _ (by simp) (by simp)

end Logs
end Verif
