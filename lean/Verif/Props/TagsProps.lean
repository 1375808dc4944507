import Verif.Props.TagsSpec
/-!
# C69: a tag reads back as it was last set
-/
namespace Verif.Tags

theorem find_setTag (t v : String) (l : Tags) (t' : String) : find t' (setTag t v l) = if t' = t then some v else find t' l := by
  induction l with
  | nil => simp only [setTag, find, eq_comm]
  | cons e r ih =>
    obtain ⟨a, x⟩ := e
    unfold setTag
    by_cases ha : a = t
    · rw [if_pos ha]
      unfold find
      by_cases hb : a = t'
      · have : t' = t := hb ▸ ha
        simp [hb, this]
      · have : ¬ t' = t := fun x => hb (ha.trans x.symm)
        simp [hb, this]
    · rw [if_neg ha]
      unfold find
      by_cases hb : a = t'
      · have : ¬ t' = t := fun x => ha (hb.trans x)
        simp [hb, this]
      · simp [hb, ih]

theorem names_setTag (t v : String) (l : Tags) : (setTag t v l).map (·.1) = if t ∈ l.map (·.1) then l.map (·.1) else l.map (·.1) ++ [t] := by
  induction l with
  | nil => simp [setTag]
  | cons e r ih =>
    obtain ⟨a, x⟩ := e
    unfold setTag
    by_cases ha : a = t
    · simp [ha]
    · have hb : ¬ t = a := fun x => ha x.symm
      simp only [ha, if_false, List.map_cons, List.mem_cons, hb, false_or, ih]
      split <;> simp

theorem nodup_setTag (t v : String) {l : Tags} (h : (l.map (·.1)).Nodup) : ((setTag t v l).map (·.1)).Nodup := by
  rw [names_setTag]
  split
  · exact h
  · rename_i hn
    rw [List.nodup_append]
    refine ⟨h, by simp, ?_⟩
    intro a ha b hb
    rw [List.mem_singleton] at hb; subst hb
    rintro rfl
    exact hn ha

theorem mem_iff_find {l : Tags} (h : (l.map (·.1)).Nodup) (t v : String) : (t, v) ∈ l ↔ find t l = some v := by
  induction l with
  | nil => simp [find]
  | cons e r ih =>
    obtain ⟨a, x⟩ := e
    rw [List.map_cons, List.nodup_cons] at h
    unfold find
    by_cases ha : a = t
    · subst ha
      have hn : (a, v) ∉ r := fun hm => h.1 (List.mem_map.2 ⟨_, hm, rfl⟩)
      simp only [List.mem_cons, Prod.mk.injEq, true_and, hn, or_false, if_true, Option.some.injEq]
      exact eq_comm
    · have hb : ¬ t = a := fun x => ha x.symm
      simp [ha, hb, ih h.2]

theorem find_append (t : String) (a b : Tags) : find t (a ++ b) = (find t a).or (find t b) := by
  induction a with
  | nil => simp [find]
  | cons e r ih =>
    obtain ⟨x, y⟩ := e
    simp only [List.cons_append, find]
    split
    · rfl
    · exact ih

theorem find_updFirst (t v : String) (l : Tags) (t' : String) :
    find t' (updFirst t v l) = if t' = t then (find t' l).map fun _ => v else find t' l := by
  induction l with
  | nil => simp [updFirst, find]
  | cons e r ih =>
    obtain ⟨a, x⟩ := e
    unfold updFirst
    by_cases ha : a = t
    · rw [if_pos ha]
      unfold find
      by_cases hb : a = t'
      · have : t' = t := hb ▸ ha
        simp [hb, this]
      · have : ¬ t' = t := fun x => hb (ha.trans x.symm)
        simp [hb, this]
    · rw [if_neg ha]
      unfold find
      by_cases hb : a = t'
      · have : ¬ t' = t := fun x => ha (hb.trans x)
        simp [hb, this]
      · simp [hb, ih]

theorem find_setCoreTag (t v : String) (l : Tags) (t' : String) : find t' (setCoreTag t v l) = if t' = t then some v else find t' l := by
  unfold setCoreTag
  rw [find_append, find_updFirst]
  by_cases h : t' = t
  · subst h
    cases find t' l <;> simp [find]
  · have h' : ¬ t = t' := fun x => h x.symm
    simp [h, h', find]

theorem find_updFirst_reverse (t v : String) (l : Tags) (t' : String) (h : t' ≠ t) :
    find t' (updFirst t v l).reverse = find t' l.reverse := by
  induction l with
  | nil => rfl
  | cons e r ih =>
    obtain ⟨a, x⟩ := e
    unfold updFirst
    split
    · rename_i ha
      subst ha
      have h' : ¬ a = t' := fun x => h x.symm
      simp [find_append, find, h']
    · simp [find_append, ih]

theorem object_setCoreTag (t v : String) (l : Tags) (t' : String) : object (setCoreTag t v l) t' = if t' = t then some v else object l t' := by
  unfold object setCoreTag
  rw [List.reverse_append]
  simp only [List.reverse_cons, List.reverse_nil, List.nil_append, List.cons_append, find]
  by_cases h : t' = t
  · simp [h]
  · have h' : ¬ t = t' := fun x => h x.symm
    simp [h, h', find_updFirst_reverse t v l t' h]

/-! ## Histories -/

theorem snoc_ind {P : List Op → Prop} (nil : P []) (append_singleton : ∀ ts t, P ts → P (ts ++ [t])) (ts : List Op) : P ts := by
  have : ∀ n (l : List Op), l.length = n → P l := by
    intro n
    induction n with
    | zero => intro l hl; rw [List.length_eq_zero_iff.1 hl]; exact nil
    | succ n ih =>
      intro l hl
      rcases List.eq_nil_or_concat l with rfl | ⟨a, b, rfl⟩
      · exact nil
      · rw [List.concat_eq_append] at hl ⊢
        exact append_singleton a b (ih a (by simpa using hl))
  exact this _ ts rfl

theorem run_snoc (ops : List Op) (o : Op) : run (ops ++ [o]) = (step (run ops) o).1 := by
  unfold run; rw [List.foldl_append]; rfl

theorem last_snoc (w : Op → Option String) (ops : List Op) (o : Op) : lastWrite w (ops ++ [o]) = (w o).or (lastWrite w ops) := by
  unfold lastWrite
  simp only [List.reverse_append, List.reverse_cons, List.reverse_nil, List.nil_append, List.cons_append, List.findSome?_cons]
  cases w o <;> rfl

/-- The next command makes no difference to what all of them come to. -/
theorem drained_process (c : Core) : drained (step c .process).1 = drained c := by
  unfold step drained
  cases h : c.queue with
  | nil => simp [h]
  | cons m r => simp

theorem handles_spec (ops : List Op) (h : Nat) (t : String) : find t ((run ops).handles h) = lastWrite (onInterface h t) ops := by
  induction ops using snoc_ind with
  | nil => rfl
  | append_singleton ops o ih =>
    rw [run_snoc, last_snoc]
    cases o with
    | setInterface h' t' v =>
      by_cases h0 : t' = ""
      · simp [step, onInterface, h0, ih]
      · by_cases h1 : h = h'
        · subst h1
          by_cases h2 : t = t'
          · subst h2; simp [step, onInterface, h0, put, find_setTag]
          · have h3 : ¬ t' = t := fun x => h2 x.symm
            simp [step, onInterface, h0, put, find_setTag, h2, h3, ih]
        · have h3 : ¬ h' = h := fun x => h1 x.symm
          simp [step, onInterface, h0, put, h1, h3, ih]
    | setInfo h' i =>
      by_cases h1 : h = h'
      · subst h1
        by_cases h2 : t = "local_info_"
        · simp [step, onInterface, put, find_setTag, h2, infoTag]
        · simp [step, onInterface, put, find_setTag, h2, infoTag, ih]
      · have h3 : ¬ h' = h := fun x => h1 x.symm
        simp [step, onInterface, put, h1, h3, ih]
    | setFederate f t' v =>
      by_cases h0 : t' = "" <;> simp [step, onInterface, h0, ih]
    | setCore t' v =>
      by_cases h0 : t' = "" <;> simp [step, onInterface, h0, ih]
    | process =>
      unfold step
      cases hq : (run ops).queue <;> simp [onInterface, ih]

/-- C69: a tag of an interface reads back as it was last set, whatever was set for other interfaces and other tags; "true" if an empty value was
set, and nothing if it was never set. -/
theorem C69_interface (ops : List Op) (h : Nat) (t : String) : getInterface (run ops) h t = (lastWrite (onInterface h t) ops).getD "" := by
  unfold getInterface getTag; rw [handles_spec]

/-- C69: the info of an interface reads back as the last info set, unless a tag `local_info_` was set since. -/
theorem C69_info (ops : List Op) (h : Nat) : getInfo (run ops) h = (lastWrite (onInterface h "local_info_") ops).getD "" :=
  C69_interface ops h "local_info_"

theorem feds_spec (ops : List Op) (f : Nat) : Reports ((run ops).feds f) (onFederate f) ops := by
  have key : ((run ops).feds f |>.map (·.1)).Nodup ∧ ∀ t, find t ((run ops).feds f) = lastWrite (onFederate f t) ops := by
    induction ops using snoc_ind with
    | nil => exact ⟨by simp [run], fun _ => rfl⟩
    | append_singleton ops o ih =>
      obtain ⟨ih1, ih⟩ := ih
      rw [run_snoc]
      cases o with
      | setFederate f' t' v =>
        by_cases h0 : t' = ""
        · exact ⟨by simpa [step, h0] using ih1, fun t => by rw [last_snoc]; simp [step, onFederate, h0, ih]⟩
        · by_cases h1 : f = f'
          · subst h1
            refine ⟨by simpa [step, h0, put] using nodup_setTag t' v ih1, fun t => ?_⟩
            rw [last_snoc]
            by_cases h2 : t = t'
            · subst h2; simp [step, onFederate, h0, put, find_setTag]
            · have h3 : ¬ t' = t := fun x => h2 x.symm
              simp [step, onFederate, h0, put, find_setTag, h2, h3, ih]
          · have h3 : ¬ f' = f := fun x => h1 x.symm
            exact ⟨by simpa [step, h0, put, h1] using ih1, fun t => by rw [last_snoc]; simp [step, onFederate, h0, put, h1, h3, ih]⟩
      | setInterface h' t' v =>
        have e : (step (run ops) (.setInterface h' t' v)).1.feds = (run ops).feds := by unfold step; dsimp only; split <;> rfl
        rw [e]; exact ⟨ih1, fun t => by rw [last_snoc]; exact ih t⟩
      | setInfo h' i => exact ⟨ih1, fun t => by rw [last_snoc]; exact ih t⟩
      | setCore t' v =>
        have e : (step (run ops) (.setCore t' v)).1.feds = (run ops).feds := by unfold step; dsimp only; split <;> rfl
        rw [e]; exact ⟨ih1, fun t => by rw [last_snoc]; exact ih t⟩
      | process =>
        have e : (step (run ops) .process).1.feds = (run ops).feds := by unfold step; dsimp only; split <;> rfl
        rw [e]; exact ⟨ih1, fun t => by rw [last_snoc]; exact ih t⟩
  exact ⟨key.1, fun t v => by rw [mem_iff_find key.1, key.2]⟩

/-- C69: a tag of a federate reads back as it was last set. -/
theorem C69_federate (ops : List Op) (f : Nat) (t : String) : getFederate (run ops) f t = (lastWrite (onFederate f t) ops).getD "" := by
  obtain ⟨h1, h2⟩ := feds_spec ops f
  unfold getFederate getTag
  congr 1
  apply Option.ext
  intro v
  rw [← mem_iff_find h1, h2]

/-- C69: the tags of a federate as queries list them: every tag that was set, once, with the value set last. -/
theorem C69_federate_query (ops : List Op) (f : Nat) : Reports ((run ops).feds f) (onFederate f) ops := feds_spec ops f

theorem drained_spec (ops : List Op) :
    (∀ h, (((drained (run ops)).1 h).map (·.1)).Nodup ∧ ∀ t, find t ((drained (run ops)).1 h) = lastWrite (onInterfaceQuery h t) ops) ∧
    (∀ t, find t (drained (run ops)).2 = lastWrite (onCore t) ops) ∧ (∀ t, object (drained (run ops)).2 t = lastWrite (onCore t) ops) ∧
    (drained (run ops)).2.length = (ops.filter coreSets).length := by
  induction ops using snoc_ind with
  | nil => exact ⟨fun _ => ⟨by simp [run, drained], fun _ => rfl⟩, fun _ => rfl, fun _ => rfl, rfl⟩
  | append_singleton ops o ih =>
    obtain ⟨i1, i2, i3, i4⟩ := ih
    rw [run_snoc]
    have same : ∀ c : Core, drained c = drained (run ops) → (∀ h t, onInterfaceQuery h t o = none) → (∀ t, onCore t o = none) → coreSets o = false →
        (∀ h, (((drained c).1 h).map (·.1)).Nodup ∧ ∀ t, find t ((drained c).1 h) = lastWrite (onInterfaceQuery h t) (ops ++ [o])) ∧
        (∀ t, find t (drained c).2 = lastWrite (onCore t) (ops ++ [o])) ∧ (∀ t, object (drained c).2 t = lastWrite (onCore t) (ops ++ [o])) ∧
        (drained c).2.length = ((ops ++ [o]).filter coreSets).length := by
      intro c hc a b d
      rw [hc]
      refine ⟨fun h => ⟨(i1 h).1, fun t => by rw [last_snoc, a]; exact (i1 h).2 t⟩, fun t => by rw [last_snoc, b]; exact i2 t,
        fun t => by rw [last_snoc, b]; exact i3 t, ?_⟩
      rw [List.filter_append, i4]; simp [d]
    cases o with
    | process => exact same _ (drained_process _) (fun _ _ => rfl) (fun _ => rfl) rfl
    | setInfo h' i => exact same _ rfl (fun _ _ => rfl) (fun _ => rfl) rfl
    | setFederate f' t' v => exact same _ (by unfold step; dsimp only; split <;> rfl) (fun _ _ => rfl) (fun _ => rfl) rfl
    | setInterface h' t' v =>
      by_cases h0 : t' = ""
      · exact same _ (by simp [step, h0]) (fun _ _ => by simp [onInterfaceQuery, h0]) (fun _ => rfl) rfl
      · have hd : drained (step (run ops) (.setInterface h' t' v)).1 =
            (put (drained (run ops)).1 h' (setTag t' v), (drained (run ops)).2) := by
          simp only [step, h0, if_false, drained, List.foldl_append, List.foldl_cons, List.foldl_nil, exec]
        rw [hd]
        refine ⟨fun h => ?_, fun t => by rw [last_snoc]; exact i2 t, fun t => by rw [last_snoc]; exact i3 t, ?_⟩
        · by_cases h1 : h = h'
          · subst h1
            refine ⟨by simpa [put] using nodup_setTag t' v (i1 h).1, fun t => ?_⟩
            rw [last_snoc]
            by_cases h2 : t = t'
            · subst h2; simp [onInterfaceQuery, h0, put, find_setTag]
            · have h3 : ¬ t' = t := fun x => h2 x.symm
              simp [onInterfaceQuery, h0, put, find_setTag, h2, h3, (i1 h).2]
          · have h3 : ¬ h' = h := fun x => h1 x.symm
            refine ⟨by simpa [put, h1] using (i1 h).1, fun t => ?_⟩
            rw [last_snoc]
            simp [onInterfaceQuery, h0, put, h1, h3, (i1 h).2]
        · rw [List.filter_append, i4]; simp [coreSets]
    | setCore t' v =>
      by_cases h0 : t' = ""
      · exact same _ (by simp [step, h0]) (fun _ _ => rfl) (fun _ => by simp [onCore, h0]) (by simp [coreSets, h0])
      · have hd : drained (step (run ops) (.setCore t' v)).1 = ((drained (run ops)).1, setCoreTag t' v (drained (run ops)).2) := by
          simp only [step, h0, if_false, drained, List.foldl_append, List.foldl_cons, List.foldl_nil, exec]
        rw [hd]
        refine ⟨fun h => ⟨(i1 h).1, fun t => by rw [last_snoc]; exact (i1 h).2 t⟩, fun t => ?_, fun t => ?_, ?_⟩
        · rw [last_snoc, find_setCoreTag]
          by_cases h2 : t = t'
          · subst h2; simp [onCore, h0]
          · have h3 : ¬ t' = t := fun x => h2 x.symm
            simp [onCore, h0, h2, h3, i2]
        · rw [last_snoc, object_setCoreTag]
          by_cases h2 : t = t'
          · subst h2; simp [onCore, h0]
          · have h3 : ¬ t' = t := fun x => h2 x.symm
            simp [onCore, h0, h2, h3, i3]
        · have hl : ∀ l : Tags, (updFirst t' v l).length = l.length := by
            intro l
            induction l with
            | nil => rfl
            | cons e r ih => unfold updFirst; split <;> simp [ih]
          rw [List.filter_append, List.length_append, ← i4]
          simp [setCoreTag, hl, coreSets, h0]

/-- C69: a tag of the core reads back as it was last set, up to the way texts are written in answers, even if the core has not come to the
command yet. -/
theorem C69_core (trip : String → String) (ops : List Op) (t : String) : getCore trip (run ops) t = trip ((lastWrite (onCore t) ops).getD "") := by
  unfold getCore getTag; rw [(drained_spec ops).2.1]

/-- C69: the tags of the core as queries list them, when every command has been processed. -/
theorem C69_core_query (ops : List Op) (hq : (run ops).queue = []) (t : String) : object (run ops).own t = lastWrite (onCore t) ops := by
  have h := (drained_spec ops).2.2.1 t
  unfold drained at h; rw [hq] at h; exact h

/-- C69: the tags of an interface as queries list them, when every command has been processed: every tag that was set, once, with the value
given last. -/
theorem C69_interface_query (ops : List Op) (hq : (run ops).queue = []) (h : Nat) : Reports ((run ops).loop h) (onInterfaceQuery h) ops := by
  obtain ⟨h1, h2⟩ := (drained_spec ops).1 h
  have e : (drained (run ops)).1 = (run ops).loop := by unfold drained; rw [hq]; rfl
  rw [e] at h1 h2
  exact ⟨h1, fun t v => by rw [mem_iff_find h1, h2 t]⟩

/-- C69: an empty tag is refused and changes nothing. -/
theorem C69_refused (c : Core) (i : Nat) (v : String) : step c (.setInterface i "" v) = (c, true) ∧ step c (.setFederate i "" v) = (c, true) ∧
    step c (.setCore "" v) = (c, true) := ⟨rfl, rfl, rfl⟩

/-- C69 (counterexample): the core keeps an entry for every call, so that its list grows without bound although the tags are few. -/
theorem C69_core_grows (ops : List Op) (hq : (run ops).queue = []) : (run ops).own.length = (ops.filter coreSets).length := by
  have h := (drained_spec ops).2.2.2
  unfold drained at h; rw [hq] at h; exact h

/-- C69 (counterexample): an empty value is "true" when read from an interface, empty in queries about it, and empty for a federate and the core. -/
theorem C69_empty_value : getInterface (run [.setInterface 0 "t" ""]) 0 "t" = "true" ∧
    (run [.setInterface 0 "t" "", .process]).loop 0 = [("t", "")] ∧ getFederate (run [.setFederate 0 "t" ""]) 0 "t" = "" ∧
    getCore id (run [.setCore "t" ""]) "t" = "" := by
  refine ⟨?_, ?_, ?_, ?_⟩ <;> decide +kernel

/-- C69 (counterexample): the info of an interface is one of its tags, and setting the tag changes the info. -/
theorem C69_info_is_a_tag : getInfo (run [.setInfo 0 "a", .setInterface 0 "local_info_" "b"]) 0 = "b" ∧
    getInterface (run [.setInfo 0 "a"]) 0 "local_info_" = "a" := by
  refine ⟨?_, ?_⟩ <;> decide +kernel

/-- A history with several interfaces, federates and tags, some set twice. -/
example : (fun c : Core => (getInterface c 0 "a", getInterface c 1 "a", c.loop 0, getFederate c 0 "a", getCore id c "a", c.own.length))
    (run [.setInterface 0 "a" "1", .setInterface 1 "a" "2", .process, .setFederate 0 "a" "3", .setCore "a" "4", .setInterface 0 "b" "5",
      .setInterface 0 "a" "6", .setCore "a" "7", .process, .process, .process, .process, .process]) =
    ("6", "2", [("a", "6"), ("b", "5")], "3", "7", 2) := by decide +kernel

end Verif.Tags
