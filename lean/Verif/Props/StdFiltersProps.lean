import Verif.Props.StdFiltersSpec
/-! C64: the standard filters do what their settings say. -/
namespace Verif
namespace StdF

theorem snoc_ind {α : Type} {P : List α → Prop} (h0 : P []) (h1 : ∀ l a, P l → P (l ++ [a])) : ∀ l, P l := by
  intro l
  have h : ∀ r : List α, P r.reverse := by
    intro r
    induction r with
    | nil => exact h0
    | cons a r ih => rw [List.reverse_cons]; exact h1 _ _ ih
  rw [← List.reverse_reverse l]; exact h _

theorem calls_snoc (x : Ext) (o : FOp) (l : List Call) (c : Call) :
    o.calls x (l ++ [c]) = ((o.calls x l).call x c).1 := by
  simp [FOp.calls]

theorem last_snoc {α : Type} (f : Call → Option α) (a : α) (l : List Call) (c : Call) :
    last f a (l ++ [c]) = (f c).getD (last f a l) := by
  unfold last
  rw [List.filterMap_append]
  cases h : f c with
  | none => simp [h]
  | some v => simp [h]

theorem calls_delay (x : Ext) (d : Int) (l : List Call) :
    (FOp.delay d).calls x l = .delay (last (delayOf x) d l) := by
  induction l using snoc_ind with
  | h0 => rfl
  | h1 l c ih =>
    rw [calls_snoc, ih, last_snoc]
    cases c with
    | set p v =>
      by_cases hp : p = "delay" <;> by_cases hv : 0 ≤ v <;> simp [FOp.call, FOp.set, delayOf, hp, hv]
    | setString p v =>
      by_cases hp : p = "delay"
      · cases hx : x.time v <;> simp [FOp.call, FOp.setString, delayOf, hp, hx]
      · simp [FOp.call, FOp.setString, delayOf, hp]

theorem last_mem {α : Type} (f : Call → Option α) (a : α) (l : List Call) :
    last f a l = a ∨ ∃ c ∈ l, f c = some (last f a l) := by
  induction l using snoc_ind with
  | h0 => exact .inl rfl
  | h1 l c ih =>
    rw [last_snoc]
    cases h : f c with
    | none =>
      rcases ih with ih | ⟨c', h1, h2⟩
      · exact .inl ih
      · exact .inr ⟨c', List.mem_append_left _ h1, h2⟩
    | some v => exact .inr ⟨c, by simp, by simpa using h⟩

/-- C64: a delay filter adds to the time of a message the delay that was set last, and changes nothing else -/
theorem C64_delay (x : Ext) (d : Int) (l : List Call) (u : Int) (m : Filt.Msg) :
    ((newDelay d).calls x l).proc x u m =
      some { m with time := m.time + last (delayOf x) (if d < 0 then 0 else d) l } := by
  rw [newDelay, calls_delay]; rfl

/-- C64: as long as no negative time is given as a string, no message is moved back -/
theorem C64_delay_forward (x : Ext) (d : Int) (l : List Call) (u : Int) (m : Filt.Msg)
    (h : ∀ p s t, .setString p s ∈ l → x.time s = some t → 0 ≤ t) :
    ∃ t, ((newDelay d).calls x l).proc x u m = some { m with time := t } ∧ m.time ≤ t := by
  refine ⟨_, C64_delay x d l u m, ?_⟩
  have : 0 ≤ last (delayOf x) (if d < 0 then 0 else d) l := by
    rcases last_mem (delayOf x) (if d < 0 then 0 else d) l with h1 | ⟨c, hc, h1⟩
    · rw [h1]; split <;> omega
    · generalize last (delayOf x) (if d < 0 then 0 else d) l = t at h1 ⊢
      cases c with
      | set p v =>
        simp only [delayOf] at h1
        split at h1
        · next h2 => simp only [Option.some.injEq] at h1; omega
        · simp at h1
      | setString p s =>
        simp only [delayOf] at h1
        split at h1
        · exact h p s t hc h1
        · simp at h1
  omega

/-- a negative delay given as a string is taken: the message is moved back in time -/
theorem C64_negative (x : Ext) (s : String) (t : Int) (ht : x.time s = some t) (hn : t < 0) (d u : Int)
    (m : Filt.Msg) :
    ∃ t', ((newDelay d).calls x [.setString "delay" s]).proc x u m = some { m with time := t' } ∧ t' < m.time := by
  refine ⟨m.time + t, ?_, by omega⟩
  simp [newDelay, FOp.calls, FOp.call, FOp.setString, ht, FOp.proc]

/-- C64: a random delay filter changes nothing but the time; with the distribution `constant` it adds its first
parameter -/
theorem C64_random_delay (x : Ext) (l : List Call) (u : Int) (m : Filt.Msg) :
    ∃ dist p1 p2, newRandDelay.calls x l = .randDelay dist p1 p2 ∧ dist ∈ dists ∧
      ∃ t, (newRandDelay.calls x l).proc x u m = some { m with time := m.time + t } ∧
        (dist = "constant" → t = p1) := by
  have key : ∃ dist p1 p2, newRandDelay.calls x l = .randDelay dist p1 p2 ∧ dist ∈ dists := by
    induction l using snoc_ind with
    | h0 => exact ⟨"uniform", 0, 0, rfl, by simp [dists]⟩
    | h1 l c ih =>
      obtain ⟨dist, p1, p2, h, hd⟩ := ih
      rw [calls_snoc, h]
      cases c with
      | set p v =>
        simp only [FOp.call, FOp.set]
        split
        · exact ⟨_, _, _, rfl, hd⟩
        · split <;> exact ⟨_, _, _, rfl, hd⟩
      | setString p v =>
        simp only [FOp.call, FOp.setString]
        split
        · split
          · next hv => exact ⟨_, _, _, rfl, hv⟩
          · exact ⟨_, _, _, rfl, hd⟩
        · split
          · split <;> exact ⟨_, _, _, rfl, hd⟩
          · split
            · split <;> exact ⟨_, _, _, rfl, hd⟩
            · exact ⟨_, _, _, rfl, hd⟩
  obtain ⟨dist, p1, p2, h, hd⟩ := key
  refine ⟨dist, p1, p2, h, hd, _, by rw [h]; rfl, fun h => by simp [h]⟩

theorem calls_drop (x : Ext) (p : Int) (l : List Call) :
    (FOp.drop p).calls x l = .drop (last probOf p l) := by
  induction l using snoc_ind with
  | h0 => rfl
  | h1 l c ih =>
    rw [calls_snoc, ih, last_snoc]
    cases c with
    | set q v =>
      simp only [FOp.call, FOp.set, probOf]
      split <;> rfl
    | setString q v => rfl

/-- C64: a random drop filter hands a message on unchanged or drops it, the latter when the random number falls
into the part of the range that was set last -/
theorem C64_drop (x : Ext) (l : List Call) (u : Int) (m : Filt.Msg) :
    (newDrop.calls x l).proc x u m = if u + last probOf 0 l < one then some m else none := by
  rw [newDrop, calls_drop]
  simp only [FOp.proc]
  split <;> split <;> first | rfl | omega

/-- C64: with probability 0 every message passes, with probability 1 none, and a smaller probability lets pass
whatever a larger one does -/
theorem C64_drop_range (x : Ext) (l : List Call) (u : Int) (hu : 0 ≤ u ∧ u < one) (m : Filt.Msg) :
    (last probOf 0 l ≤ 0 → (newDrop.calls x l).proc x u m = some m) ∧
    (one ≤ last probOf 0 l → (newDrop.calls x l).proc x u m = none) ∧
    ∀ l', last probOf 0 l' ≤ last probOf 0 l → (newDrop.calls x l).proc x u m = some m →
      (newDrop.calls x l').proc x u m = some m := by
  simp only [C64_drop]
  refine ⟨fun h => ?_, fun h => ?_, fun l' h h1 => ?_⟩
  · rw [if_pos (by omega)]
  · rw [if_neg (by omega)]
  · split at h1
    · rw [if_pos (by omega)]
    · simp at h1

/-- C64: a call that is refused changes nothing -/
theorem C64_refused (x : Ext) (o : FOp) (c : Call) (h : (o.call x c).2 = true) : (o.call x c).1 = o := by
  cases c with
  | set p v => cases o <;> simp_all [FOp.call, FOp.set]
  | setString p v =>
    cases o with
    | delay d =>
      simp only [FOp.call, FOp.setString] at h ⊢
      split
      · split <;> simp_all
      · rfl
    | randDelay dist p1 p2 =>
      simp only [FOp.call, FOp.setString] at h ⊢
      split
      · simp_all
      · split
        · split <;> simp_all
        · split
          · split <;> simp_all
          · rfl
    | drop p => rfl
    | reroute n c =>
      simp only [FOp.call, FOp.setString] at h ⊢
      split
      · simp_all
      · split
        · split <;> simp_all
        · rfl
    | firewall => rfl
    | clone a =>
      simp only [FOp.call, FOp.setString] at h ⊢
      split
      · simp_all
      · split
        · simp_all
        · split <;> simp_all

theorem calls_reroute (x : Ext) (l : List Call) :
    ∃ conds, newReroute.calls x l = .reroute (last destOf "" l) conds ∧
      ∀ c, c ∈ conds ↔ c ∈ l.filterMap (condOf x) := by
  induction l using snoc_ind with
  | h0 => exact ⟨[], rfl, by simp⟩
  | h1 l c ih =>
    obtain ⟨conds, h, hc⟩ := ih
    rw [calls_snoc, h, last_snoc]
    cases c with
    | set p v =>
      refine ⟨conds, rfl, ?_⟩
      simpa [condOf] using hc
    | setString p v =>
      by_cases h1 : p = "newdestination"
      · subst h1
        refine ⟨conds, rfl, ?_⟩
        simpa [condOf] using hc
      · by_cases h2 : p = "condition"
        · subst h2
          by_cases h3 : x.valid v = true
          · refine ⟨if v ∈ conds then conds else conds ++ [v], ?_, ?_⟩
            · simp [FOp.call, FOp.setString, h3, destOf]
            · intro c
              have h4 : List.filterMap (condOf x) [.setString "condition" v] = [v] := by simp [condOf, h3]
              rw [List.filterMap_append, h4, List.mem_append, ← hc]
              split
              · next h5 =>
                simp only [List.mem_singleton]
                constructor
                · exact .inl
                · rintro (h6 | rfl)
                  · exact h6
                  · exact h5
              · simp
          · refine ⟨conds, by simp [FOp.call, FOp.setString, h3, destOf], ?_⟩
            simpa [condOf, h3] using hc
        · refine ⟨conds, by simp [FOp.call, FOp.setString, h1, h2, destOf], ?_⟩
          simpa [condOf, h2] using hc

/-- C64: a reroute filter sends a message to the destination set last, made out for the message, if no condition
was given or its destination meets one of those given, and else leaves its destination as it is; the first
destination is remembered, and nothing else is changed -/
theorem C64_reroute (x : Ext) (l : List Call) (u : Int) (m : Filt.Msg) :
    ∃ d, (newReroute.calls x l).proc x u m =
        some { m with odest := if m.odest = "" then m.dest else m.odest, dest := d } ∧
      (((∀ c ∈ l, condOf x c = none) ∨ ∃ c ∈ l, ∃ r, condOf x c = some r ∧ x.search r m.dest = true) →
        d = newDestGeneration m.source m.dest (last destOf "" l)) ∧
      (¬((∀ c ∈ l, condOf x c = none) ∨ ∃ c ∈ l, ∃ r, condOf x c = some r ∧ x.search r m.dest = true) →
        d = m.dest) := by
  obtain ⟨conds, h, hc⟩ := calls_reroute x l
  refine ⟨_, by rw [h]; rfl, ?_, ?_⟩
  · intro h1
    unfold rerouteOperation
    rcases h1 with h1 | ⟨c, h1, r, h2, h3⟩
    · have : conds = [] := by
        rw [List.eq_nil_iff_forall_not_mem]
        intro r hr
        obtain ⟨c, h3, h4⟩ := List.mem_filterMap.1 ((hc r).1 hr)
        rw [h1 c h3] at h4; simp at h4
      rw [if_pos this]
    · split
      · rfl
      · rw [if_pos]
        rw [List.any_eq_true]
        exact ⟨r, (hc r).2 (List.mem_filterMap.2 ⟨c, h1, h2⟩), h3⟩
  · intro h1
    unfold rerouteOperation
    rw [if_neg, if_neg]
    · intro h2
      obtain ⟨r, h3, h4⟩ := List.any_eq_true.1 h2
      obtain ⟨c, h5, h6⟩ := List.mem_filterMap.1 ((hc r).1 h3)
      exact h1 (.inr ⟨c, h5, r, h6, h4⟩)
    · intro h2
      subst h2
      refine h1 (.inl fun c h3 => ?_)
      cases h4 : condOf x c with
      | none => rfl
      | some r => simpa using (hc r).2 (List.mem_filterMap.2 ⟨c, h3, h4⟩)

theorem calls_clone (x : Ext) (l : List Call) :
    ∃ addrs, newClone.calls x l = .clone addrs ∧ addrs.Nodup ∧ ∀ a, a ∈ addrs ↔ Wanted a l := by
  induction l using snoc_ind with
  | h0 => exact ⟨[], rfl, List.nodup_nil, by simp [Wanted]⟩
  | h1 l c ih =>
    obtain ⟨addrs, h, hn, ha⟩ := ih
    rw [calls_snoc, h]
    have hw : ∀ a, Wanted a (l ++ [c]) ↔ wants a (l.foldl (wants a) false) c = true := by
      intro a; simp [Wanted]
    cases c with
    | set p v => exact ⟨addrs, rfl, hn, fun a => by rw [hw, ha]; rfl⟩
    | setString p v =>
      by_cases h1 : p = "delivery"
      · subst h1
        refine ⟨[v], rfl, by simp, fun a => ?_⟩
        rw [hw]
        simp only [wants, if_true, List.mem_singleton, beq_iff_eq]
        exact ⟨fun h => h.symm, fun h => h.symm⟩
      · by_cases h2 : p = "add delivery"
        · subst h2
          refine ⟨_, rfl, ?_, fun a => ?_⟩
          · split
            · exact hn
            · next h3 =>
              rw [List.nodup_append]
              exact ⟨hn, by simp, fun a h4 b h5 h6 => h3 (by simp at h5; subst h5; subst h6; exact h4)⟩
          · rw [hw]
            have : wants a (l.foldl (wants a) false) (.setString "add delivery" v) = true ↔ a ∈ addrs ∨ a = v := by
              rw [ha]; simp only [wants, Wanted]
              have : (v == a) = decide (a = v) := by
                by_cases h : a = v
                · subst h; simp
                · have : v ≠ a := fun h' => h h'.symm
                  simp [h, this]
              simp [this]
            rw [this]
            split
            · next h3 =>
              constructor
              · exact .inl
              · rintro (h4 | rfl)
                · exact h4
                · exact h3
            · simp
        · by_cases h3 : p = "remove delivery"
          · subst h3
            refine ⟨_, rfl, hn.erase v, fun a => ?_⟩
            rw [hw, hn.mem_erase_iff]
            have : wants a (l.foldl (wants a) false) (.setString "remove delivery" v) = true ↔ a ∈ addrs ∧ v ≠ a := by
              rw [ha]; simp only [wants, Wanted]
              simp
            rw [this]
            exact ⟨fun ⟨h1, h2⟩ => ⟨h2, fun h => h1 h.symm⟩, fun ⟨h1, h2⟩ => ⟨fun h => h2 h.symm, h1⟩⟩
          · refine ⟨addrs, by simp [FOp.call, FOp.setString, h1, h2, h3], hn, fun a => ?_⟩
            rw [hw, ha]
            simp [wants, h1, h2, h3, Wanted]

/-- C64: a clone filter makes one copy for each of its delivery addresses and no other; a copy remembers the
destination of the message and is like it otherwise -/
theorem C64_clone (x : Ext) (l : List Call) (u : Int) (m : Filt.Msg) :
    (((newClone.calls x l).vec x u m).map (·.dest)).Nodup ∧
    (∀ a, a ∈ ((newClone.calls x l).vec x u m).map (·.dest) ↔ Wanted a l) ∧
    ∀ c ∈ (newClone.calls x l).vec x u m, c = { m with odest := m.dest, dest := c.dest } := by
  obtain ⟨addrs, h, hn, ha⟩ := calls_clone x l
  have hd : ((FOp.clone addrs).vec x u m).map (·.dest) = addrs := by
    simp [FOp.vec, sendMessage, Function.comp_def]
  rw [h, hd]
  refine ⟨hn, ha, ?_⟩
  intro c hc
  simp only [FOp.vec, sendMessage, List.mem_map] at hc
  obtain ⟨a, -, rfl⟩ := hc
  rfl

/-- C64: the copies are made in the order in which the addresses were added -/
theorem C64_clone_order (x : Ext) (l : List Call) (u : Int) (m : Filt.Msg) (v : String) :
    let to := fun l => ((newClone.calls x l).vec x u m).map (·.dest)
    to (l ++ [.setString "add delivery" v]) = (if v ∈ to l then to l else to l ++ [v]) ∧
    to (l ++ [.setString "remove delivery" v]) = (to l).filter (· ≠ v) ∧
    to (l ++ [.setString "delivery" v]) = [v] := by
  obtain ⟨addrs, h, hn, -⟩ := calls_clone x l
  have hd : ∀ addrs, ((FOp.clone addrs).vec x u m).map (·.dest) = addrs := by
    intro addrs; simp [FOp.vec, sendMessage, Function.comp_def]
  simp only [calls_snoc, h, hd]
  refine ⟨?_, ?_, ?_⟩
  · simp [FOp.call, FOp.setString, hd]
  · simp only [FOp.call, FOp.setString]
    simp only [show ("remove delivery" = "delivery") = False by simp,
      show ("remove delivery" = "add delivery") = False by simp, if_false, if_true, hd]
    rw [hn.erase_eq_filter]
    congr 1; funext a; simp [bne, BEq.beq]
  · simp [FOp.call, FOp.setString, hd]

/-- C64: a clone filter that is not used for copies redirects the message if it has exactly one address, and else lets
it pass -/
theorem C64_clone_as_filter (x : Ext) (l : List Call) (u : Int) (m : Filt.Msg) :
    (∀ a, (∀ b, Wanted b l ↔ b = a) → (newClone.calls x l).proc x u m = some { m with odest := m.dest, dest := a }) ∧
    ((∀ a, ¬∀ b, Wanted b l ↔ b = a) → (newClone.calls x l).proc x u m = some m) := by
  obtain ⟨addrs, h, hn, ha⟩ := calls_clone x l
  rw [h]
  constructor
  · intro a hw
    have : addrs = [a] := by
      match addrs, hn, ha with
      | [], _, ha => exact absurd ((ha a).2 ((hw a).2 rfl)) (by simp)
      | [b], _, ha => rw [(hw b).1 ((ha b).1 (by simp))]
      | b :: c :: r, hn, ha =>
        have h1 := (hw b).1 ((ha b).1 (by simp))
        have h2 := (hw c).1 ((ha c).1 (by simp))
        simp [h1, h2] at hn
    rw [this]; rfl
  · intro hw
    match addrs, ha with
    | [], _ => rfl
    | [b], ha => exact absurd (fun c => (ha c).symm.trans (by simp)) (hw b)
    | b :: c :: r, _ => rfl

/-- C64: a clone filter refuses exactly the numbers and the names it does not know -/
theorem C64_clone_refuses (x : Ext) (l : List Call) (c : Call) :
    ((newClone.calls x l).call x c).2 = false ↔
      ∃ v, c = .setString "delivery" v ∨ c = .setString "add delivery" v ∨ c = .setString "remove delivery" v := by
  obtain ⟨addrs, h, -, -⟩ := calls_clone x l
  rw [h]
  cases c with
  | set p v => simp [FOp.call, FOp.set]
  | setString p v =>
    by_cases h1 : p = "delivery"
    · simp [FOp.call, FOp.setString, h1]
    · by_cases h2 : p = "add delivery"
      · simp [FOp.call, FOp.setString, h2]
      · by_cases h3 : p = "remove delivery"
        · simp [FOp.call, FOp.setString, h3]
        · simp [FOp.call, FOp.setString, h1, h2, h3]

/-- C64: a cloning filter hands the calls about delivery on to its operation, and those about targets not -/
theorem C64_cloning_call (x : Ext) (o : FOp) (p v : String) :
    (p ∈ ["delivery", "add delivery", "remove delivery"] → cloningCall x o p v = o.setString x p v) ∧
    (p ∈ ["source", "dest", "destination", "endpoint", "remove source", "remove dest", "remove endpoint"] →
      cloningCall x o p v = (o, false)) := by
  constructor
  · intro h
    simp only [List.mem_cons, List.not_mem_nil, or_false] at h
    rcases h with rfl | rfl | rfl <;> simp [cloningCall]
  · intro h
    simp only [List.mem_cons, List.not_mem_nil, or_false] at h
    rcases h with rfl | rfl | rfl | rfl | rfl | rfl | rfl <;> simp [cloningCall]

theorem listing_go (l : List String) : ∀ acc a : String,
    l.foldl (fun r b => r ++ ",\"" ++ b ++ "\"") (acc ++ ("\"" ++ a ++ "\"")) = acc ++ quoted (a :: l) := by
  induction l with
  | nil => intro acc a; rfl
  | cons b l ih =>
    intro acc a
    rw [List.foldl_cons]
    have h := ih (acc ++ ("\"" ++ a ++ "\"") ++ ",") b
    rw [show ",\"" = "," ++ "\"" from rfl]
    simp only [String.append_assoc, quoted] at h ⊢
    exact h

/-- C64: the delivery addresses are read back as the one there is, or as a list -/
theorem C64_listing (l : List String) :
    listing l = match l with
      | [] => ""
      | [a] => a
      | l => "[" ++ quoted l ++ "]" := by
  match l with
  | [] => rfl
  | [a] => rfl
  | a :: b :: l =>
    have h := listing_go (b :: l) "" a
    simp only [listing]
    simp only [String.empty_append] at h
    rw [h]

/-- a firewall filter drops everything -/
theorem C64_firewall (x : Ext) (l : List Call) (u : Int) (m : Filt.Msg) :
    (FOp.firewall.calls x l).proc x u m = none := by
  have : FOp.firewall.calls x l = .firewall := by
    induction l using snoc_ind with
    | h0 => rfl
    | h1 l c ih => rw [calls_snoc, ih]; cases c <;> rfl
  rw [this]; rfl

/-- a reroute filter that was given no destination sends messages to nobody -/
theorem C64_reroute_nowhere (x : Ext) (u : Int) (m : Filt.Msg) :
    (newReroute.proc x u m).map (·.dest) = some "" := by
  simp [newReroute, FOp.proc, rerouteOperation, newDestGeneration]

/-! ### Destinations made out for a message -/

theorem expand_plain (pre mat suf : List Char) : ∀ (n : Nat) (f : List Char), '$' ∉ f → f.length < n →
    expand pre mat suf n f = f
  | 0, _, _, h => absurd h (by omega)
  | _ + 1, [], _, _ => by simp [expand]
  | n + 1, c :: r, hd, hn => by
    have h1 : c ≠ '$' := fun h => hd (by simp [h])
    have h2 : '$' ∉ r := fun h => hd (by simp [h])
    rw [expand, if_neg h1, expand_plain pre mat suf n r h2 (by simpa using hn)]

theorem replace_skip (pat fmt : List Char) : ∀ (a acc s : List Char),
    replace pat fmt a.length acc (a ++ s) = replace pat fmt 0 acc s
  | [], _, _ => rfl
  | _ :: a, acc, s => by
    simp only [List.length_cons, List.cons_append, replace]
    exact replace_skip pat fmt a acc s

/-- text in which the pattern starts nowhere is kept -/
theorem replace_lit (p : List Char) (fmt : List Char) : ∀ (a : List Char), '$' ∉ a → ∀ acc s,
    replace ('$' :: p) fmt 0 acc (a ++ s) = a ++ replace ('$' :: p) fmt 0 (acc ++ a) s
  | [], _, acc, s => by simp
  | c :: a, h, acc, s => by
    have h1 : c ≠ '$' := fun h' => h (by simp [h'])
    have h2 : '$' ∉ a := fun h' => h (by simp [h'])
    have h3 : List.isPrefixOf ('$' :: p) (c :: (a ++ s)) = false := by
      simp [List.isPrefixOf, (Ne.symm h1)]
    simp only [List.cons_append, replace, h3]
    simp [replace_lit p fmt a h2]

theorem prefix_append (p s : List Char) : List.isPrefixOf p (p ++ s) = true := by
  induction p with
  | nil => simp
  | cons c p ih => simp [List.isPrefixOf]

/-- a place for the pattern is filled -/
theorem replace_hit (p : List Char) (fmt : List Char) (hf : '$' ∉ fmt) (acc s : List Char) :
    replace ('$' :: p) fmt 0 acc ('$' :: p ++ s) = fmt ++ replace ('$' :: p) fmt 0 [] s := by
  have h := prefix_append ('$' :: p) s
  rw [List.cons_append] at h ⊢
  rw [replace, if_pos h, expand_plain _ _ _ _ _ hf (by omega)]
  congr 1
  have := replace_skip ('$' :: p) fmt p [] s
  simpa using this

def sourcePat : List Char := ['{', 's', 'o', 'u', 'r', 'c', 'e', '}']
def destPat : List Char := ['{', 'd', 'e', 's', 't', '}']

theorem source_text : "${source}".toList = '$' :: sourcePat := by decide +kernel
theorem dest_text : "${dest}".toList = '$' :: destPat := by decide +kernel
theorem text_source : Piece.source.text = '$' :: sourcePat := source_text
theorem text_dest : Piece.dest.text = '$' :: destPat := dest_text

/-- the other place is left alone -/
theorem replace_other (fmt acc s : List Char) :
    replace ('$' :: sourcePat) fmt 0 acc ('$' :: destPat ++ s) =
      '$' :: destPat ++ replace ('$' :: sourcePat) fmt 0 (acc ++ '$' :: destPat) s := by
  have h : List.isPrefixOf ('$' :: sourcePat) ('$' :: (destPat ++ s)) = false := by
    simp [sourcePat, destPat, List.isPrefixOf]
  rw [List.cons_append, replace, h]
  simp only [Bool.false_eq_true, if_false]
  rw [replace_lit sourcePat fmt destPat (by decide +kernel)]
  simp

theorem text_lit (l : List Char) : (Piece.lit l).text = l := rfl

/-- after the first pass -/
def Piece.half (src : String) : Piece → List Char
  | .lit l => l
  | .source => src.toList
  | .dest => '$' :: destPat

attribute [local irreducible] sourcePat destPat Piece.text

theorem first_pass (src : String) (hs : '$' ∉ src.toList) : ∀ (ps : List Piece), (∀ p ∈ ps, p.Plain) → ∀ acc,
    replace ('$' :: sourcePat) src.toList 0 acc (ps.flatMap Piece.text) = ps.flatMap (Piece.half src)
  | [], _, acc => by simp [replace]
  | p :: ps, h, acc => by
    have ih := first_pass src hs ps (fun q hq => h q (List.mem_cons_of_mem _ hq))
    have hp := h p (by simp)
    rw [List.flatMap_cons, List.flatMap_cons]
    cases p with
    | lit l => rw [text_lit, replace_lit sourcePat _ l hp, ih, Piece.half]
    | source => rw [text_source, replace_hit sourcePat _ hs, ih, Piece.half]
    | dest => rw [text_dest, replace_other, ih, Piece.half]

theorem second_pass (src dst : String) (hs : '$' ∉ src.toList) (hd : '$' ∉ dst.toList) : ∀ (ps : List Piece),
    (∀ p ∈ ps, p.Plain) → ∀ acc,
    replace ('$' :: destPat) dst.toList 0 acc (ps.flatMap (Piece.half src)) = ps.flatMap (Piece.mean src dst)
  | [], _, acc => by simp [replace]
  | p :: ps, h, acc => by
    have ih := second_pass src dst hs hd ps (fun q hq => h q (List.mem_cons_of_mem _ hq))
    have hp := h p (by simp)
    rw [List.flatMap_cons, List.flatMap_cons]
    cases p with
    | lit l => rw [Piece.half, Piece.mean, replace_lit destPat _ l hp, ih]
    | source => rw [Piece.half, Piece.mean, replace_lit destPat _ _ hs, ih]
    | dest => rw [Piece.half, Piece.mean, replace_hit destPat _ hd, ih]

/-- C64: in a new destination `${source}` and `${dest}` stand for the source and the destination of the message,
everywhere, and the rest is kept - if no name has a dollar sign in it -/
theorem C64_formula (src dst : String) (hs : '$' ∉ src.toList) (hd : '$' ∉ dst.toList) (ps : List Piece)
    (h : ∀ p ∈ ps, p.Plain) :
    newDestGeneration src dst (String.ofList (ps.flatMap Piece.text)) =
      String.ofList (ps.flatMap (Piece.mean src dst)) := by
  rw [newDestGeneration, String.toList_ofList]
  split
  · next h1 =>
    congr 1
    have h2 : ∀ p ∈ ps, p.text = p.mean src dst := by
      intro p hp
      cases p with
      | lit l => rw [text_lit, Piece.mean]
      | source => exact absurd (List.mem_flatMap.2 ⟨_, hp, by rw [text_source]; exact List.mem_cons_self⟩) h1
      | dest => exact absurd (List.mem_flatMap.2 ⟨_, hp, by rw [text_dest]; exact List.mem_cons_self⟩) h1
    clear h1 h
    induction ps with
    | nil => rfl
    | cons p ps ih =>
      rw [List.flatMap_cons, List.flatMap_cons, h2 p (by simp), ih fun q hq => h2 q (List.mem_cons_of_mem _ hq)]
  · rw [source_text, dest_text]
    simp only []
    rw [first_pass src hs ps h, second_pass src dst hs hd ps h]

/-- names with a dollar sign: a name is read as a format, and a place in the name of the source is filled too -/
theorem C64_dollar :
    newDestGeneration "a$$b" "d" "x/${source}" = "x/a$b" ∧
    newDestGeneration "a$1b" "d" "x/${source}" = "x/ab" ∧
    newDestGeneration "a$&b" "d" "x/${source}" = "x/a${source}b" ∧
    newDestGeneration "${dest}" "d" "x/${source}" = "x/d" := by decide +kernel

/-! ### Rows of filters -/

theorem C64_row_aux (x : Ext) (s : Filt.FF) (fid : Int) (n : Nat) (fo : Int → FOp × Int)
    (ops : ∀ h, s.ops h = some ((fo h).1.op x (fo h).2)) : ∀ (chain : List Filt.FInfo),
    (∀ f ∈ chain, f.core = s.fed ∧ f.off = false) → ∀ (ii : Nat) (c : Filt.Cmd), c.act = .send →
    ∃ c', s.walk fid n chain ii c =
        (s, c', (through x (chain.map fun f => (f.cloning, fo f.handle)) c.msg).2.map fun m => .deliver (Filt.Cmd.ofMsg m)) ∧
      match (through x (chain.map fun f => (f.cloning, fo f.handle)) c.msg).1 with
      | some m => c'.msg = m ∧ c'.act = .send
      | none => c'.act = .ignore
  | [], _, ii, c, hc => ⟨c, by simp [Filt.FF.walk, through], by simp [through, hc]⟩
  | f :: fs, hf, ii, c, hc => by
    obtain ⟨h1, h2⟩ := hf f (by simp)
    have hf' : ∀ g ∈ fs, g.core = s.fed ∧ g.off = false := fun g hg => hf g (List.mem_cons_of_mem _ hg)
    rw [Filt.FF.walk, h2]
    simp only [Bool.false_eq_true, if_false, Filt.FF.execute, h1, if_true, ops]
    cases hcl : f.cloning with
    | true =>
      obtain ⟨c', h3, h4⟩ := C64_row_aux x s fid n fo ops fs hf' (ii + 1) c hc
      refine ⟨c', ?_, ?_⟩
      · simp only [if_true, h3, List.map_cons, hcl, through, List.map_append]
        rfl
      · simpa [hcl, through] using h4
    | false =>
      simp only [Bool.false_eq_true, if_false, List.map_cons, hcl]
      cases hp : (fo f.handle).1.proc x (fo f.handle).2 c.msg with
      | some m =>
        obtain ⟨c', h3, h4⟩ := C64_row_aux x s fid n fo ops fs hf' (ii + 1) (Filt.Cmd.ofMsg m) rfl
        have hm : (Filt.Cmd.ofMsg m).msg = m := rfl
        rw [hm] at h3 h4
        refine ⟨c', ?_, ?_⟩
        · simp only [FOp.op, hp, if_true, h3, through]
          rfl
        · simpa [through, hp] using h4
      | none =>
        refine ⟨Filt.Cmd.ofAct .ignore, ?_, ?_⟩
        · simp [FOp.op, hp, through, Filt.Cmd.ofAct]
        · simp [through, hp, Filt.Cmd.ofAct]

/-- C64: the standard filters of an endpoint work one after the other: what leaves its core is what the row makes
of the message, and the copies made on the way are delivered -/
theorem C64_row (x : Ext) (s : Filt.FF) (fo : Int → FOp × Int)
    (ops : ∀ h, s.ops h = some ((fo h).1.op x (fo h).2)) (h : Int) (e : Filt.Ept) (he : s.epts h = some e)
    (loc : ∀ f ∈ e.chain, f.core = s.fed ∧ f.off = false) (c : Filt.Cmd) (hc : c.act = .send) :
    ∃ c', s.process h c =
        (s, c', (through x (e.chain.map fun f => (f.cloning, fo f.handle)) c.msg).2.map
          fun m => .deliver (Filt.Cmd.ofMsg m)) ∧
      match (through x (e.chain.map fun f => (f.cloning, fo f.handle)) c.msg).1 with
      | some m => c'.msg = m ∧ c'.act = .send
      | none => c'.act = .ignore := by
  rw [Filt.FF.process, he]
  exact C64_row_aux x s e.fed _ fo ops e.chain loc 0 c hc

/-- C64: delays add up -/
theorem C64_delays (x : Ext) (u : Int) : ∀ (ds : List Int) (m : Filt.Msg),
    through x (ds.map fun d => (false, FOp.delay d, u)) m = (some { m with time := m.time + ds.sum }, [])
  | [], m => by simp [through]
  | d :: ds, m => by
    simp only [List.map_cons, through, FOp.proc]
    rw [C64_delays x u ds]
    simp [Int.add_assoc]

end StdF
end Verif
