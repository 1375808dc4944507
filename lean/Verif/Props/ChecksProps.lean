import Verif.Lemmas.Checks
/-!
# C66: a federate starts exactly when its connection requirements are met
-/
namespace Verif.Checks

theorem isConvertible_iff (t : String) : isConvertible t = true ↔ t ∈ standardTypes := by
  have h1 : ∀ l l' : List String, l.all (fun x => l'.contains x) = true → ∀ t ∈ l, t ∈ l' := by
    intro l l' h t ht
    simpa using List.all_eq_true.1 h t ht
  unfold isConvertible
  rw [List.contains_eq_mem, decide_eq_true_eq]
  exact ⟨h1 _ standardTypes (by decide +kernel) t, h1 standardTypes _ (by decide +kernel) t⟩

/-- C66: the type rule, for any two type names. -/
theorem C66_type_rule (want have_ : String) (strict : Bool) : checkTypeMatch want have_ strict = true ↔ Accepts strict want have_ := by
  have h1 := isConvertible_iff want
  have h2 := isConvertible_iff have_
  unfold checkTypeMatch
  constructor
  · intro h
    split at h
    · rename_i hc
      rcases hc with e | e | e | e | e | e
      · exact .anything (by simp [e])
      · exact .same e
      · exact .anything (by simp [e])
      · exact .anything (by simp [e])
      · exact .anything (by simp [e])
      · exact .anything (by simp [e])
    · rename_i hc
      split at h
      · cases h
      · rename_i hs
        have hs : strict = false := by simpa using hs
        split at h
        · rename_i hc2
          rcases hc2 with e | e | e | e
          · exact .untyped hs (by simp [e])
          · exact .untyped hs (by simp [e])
          · exact .untyped hs (by simp [e])
          · exact .anything (by simp [e])
        · split at h
          · rename_i hw
            exact .converts hs (h1.1 hw) (h2.1 h)
          · rename_i hw
            exact .custom hs (fun x => hw (h1.2 x)) (by simpa using h)
  · intro h
    split
    · rfl
    · rename_i hc
      simp only [not_or] at hc
      obtain ⟨c1, c2, c3, c4, c5, c6⟩ := hc
      cases h with
      | anything hm => simp only [List.mem_cons, List.not_mem_nil, or_false] at hm; rcases hm with e | e | e | e | e <;> contradiction
      | same e => contradiction
      | untyped hs hm =>
        simp only [List.mem_cons, List.not_mem_nil, or_false] at hm
        rcases hm with e | e | e <;> simp [hs, e]
      | converts hs hw hh => simp [hs, h1.2 hw, h2.2 hh]
      | custom hs hw hh =>
        have : isConvertible want = false := by rw [Bool.eq_false_iff]; exact fun x => hw (h1.1 x)
        simp [hs, hh, this]

/-- C66: the unit rule, for any two unit texts. -/
theorem C66_unit_rule (conv : String → String → Bool) (want have_ : String) :
    checkUnitMatch conv want have_ = true ↔ UnitsAccept conv want have_ := by
  unfold checkUnitMatch UnitsAccept
  simp only [List.mem_cons, List.not_mem_nil, or_false]
  by_cases a : want = "" <;> by_cases b : want = "def" <;> by_cases c : want = "any" <;> by_cases d : want = have_ <;>
    by_cases e : have_ = "" <;> by_cases f : have_ = "def" <;> by_cases g : have_ = "any" <;> simp_all

/-! ## Each interface -/

theorem ite_nil' {c : Bool} {x : Issue} : (if c = false then [x] else []) = [] ↔ c = true := by cases c <;> simp

theorem ite_nil {c : Bool} {x : Issue} : (if c then [x] else []) = [] ↔ c = false := by cases c <;> simp

theorem input_core (conv : String → String → Bool) (d : InDecl) (i : Input)
    (o1 : i.required = lastSays (onInput saysRequired) d.flags.req d.calls)
    (o2 : i.requiredConns = lastSays (onInput saysInputCount) d.flags.count d.calls)
    (o3 : i.strictType = lastSays (onInput saysStrict) false d.calls)
    (o4 : i.ignoreUnit = lastSays (onInput saysIgnoreUnit) false d.calls)
    (hl : Lists (i.srcs.map (·.handle)) (EverConnected d.calls)) (ho : ∀ h, tagOf i.srcs h = offers d.calls h) :
    inputIssues conv { key := d.key, type := d.type, units := d.units, ipt := i } = [] ↔ d.Met conv := by
  unfold inputIssues
  dsimp only
  have hlen : (i.srcs.map (·.handle)).length = i.srcs.length := by simp
  rw [List.append_eq_nil_iff, List.append_eq_nil_iff]
  have e1 : ((if i.required then (if i.srcs.isEmpty then [Issue.inputRequired d.key] else []) else []) = []) ↔
      (lastSays (onInput saysRequired) d.flags.req d.calls = true → ∃ h, EverConnected d.calls h) := by
    rw [← o1]
    have : (∃ h, EverConnected d.calls h) ↔ i.srcs ≠ [] := by
      constructor
      · rintro ⟨h, hh⟩ e
        have := (hl.2 h).2 hh
        simp [e] at this
      · intro e
        cases hs : i.srcs with
        | nil => exact absurd hs e
        | cons s ss => exact ⟨s.handle, (hl.2 _).1 (by simp [hs])⟩
    rw [this]
    cases i.required <;> cases i.srcs <;> simp
  have e2 : ((if i.requiredConns > 0 then
      (if (i.srcs.length : Int) ≠ i.requiredConns then
        (if i.requiredConns = 1 then [Issue.inputSingle d.key] else [.inputCount d.key i.requiredConns i.srcs.length])
      else []) else []) = []) ↔
      (lastSays (onInput saysInputCount) d.flags.count d.calls > 0 → ∀ L, Lists L (EverConnected d.calls) →
        (L.length : Int) = lastSays (onInput saysInputCount) d.flags.count d.calls) := by
    rw [← o2]
    by_cases h1 : i.requiredConns > 0
    · by_cases h2 : (i.srcs.length : Int) = i.requiredConns
      · simp only [h1, h2, ne_eq, not_true, if_true, if_false, true_iff, true_imp_iff]
        intro L hL
        rw [hL.length_eq hl, hlen]; exact h2
      · have : ¬ ∀ L, Lists L (EverConnected d.calls) → (L.length : Int) = i.requiredConns :=
          fun h => h2 (by rw [← hlen]; exact h _ hl)
        simp only [h1, h2, ne_eq, not_false_eq_true, if_true, true_imp_iff, this, iff_false]
        split <;> simp
    · simp [h1]
  have e3 : (i.srcs.flatMap (fun s =>
      (if !checkTypeMatch d.type s.type i.strictType then [Issue.inputType d.key d.type s.type] else []) ++
      (if !i.ignoreUnit && !checkUnitMatch conv d.units s.units then [.inputUnit d.key d.units s.units] else [])) = []) ↔
      ((∀ h ty u, offers d.calls h = some (ty, u) → Accepts (lastSays (onInput saysStrict) false d.calls) d.type ty) ∧
       (lastSays (onInput saysIgnoreUnit) false d.calls = false →
        ∀ h ty u, offers d.calls h = some (ty, u) → UnitsAccept conv d.units u)) := by
    rw [List.flatMap_eq_nil_iff, ← o3, ← o4]
    simp only [List.append_eq_nil_iff, ite_nil, ite_nil', Bool.not_eq_false', Bool.and_eq_false_imp, Bool.not_eq_true', C66_type_rule,
      C66_unit_rule, ← ho]
    constructor
    · intro H
      refine ⟨fun h ty u hh => ?_, fun hu h ty u hh => ?_⟩
      · obtain ⟨s, hs, rfl, rfl⟩ := (mem_tagOf hl.1 ty u).2 ⟨h, hh⟩
        exact (H s hs).1
      · obtain ⟨s, hs, rfl, rfl⟩ := (mem_tagOf hl.1 ty u).2 ⟨h, hh⟩
        exact (H s hs).2 hu
    · rintro ⟨H1, H2⟩ s hs
      obtain ⟨h, hh⟩ := (mem_tagOf hl.1 s.type s.units).1 ⟨s, hs, rfl, rfl⟩
      exact ⟨H1 h _ _ hh, fun hu => H2 hu h _ _ hh⟩
  rw [e1, e2, e3]
  exact ⟨fun ⟨⟨a, b⟩, c, e⟩ => ⟨a, b, c, e⟩, fun ⟨a, b, c, e⟩ => ⟨⟨a, b⟩, c, e⟩⟩

/-- C66 (inputs): an input has no issue exactly when its requirements are met, after every history of calls on it. -/
theorem C66_input (conv : String → String → Bool) (d : InDecl) : inputIssues conv d.now = [] ↔ d.Met conv := by
  obtain ⟨n0, nq, nr, nc, ns, nu⟩ := newInput_opts d.flags
  obtain ⟨o1, o2, o3, o4⟩ := input_opts (newInput d.flags) n0 nq d.calls
  exact input_core conv d _ (o1.trans (by rw [nr])) (o2.trans (by rw [nc])) (o3.trans (by rw [ns])) (o4.trans (by rw [nu]))
    (input_handles (newInput d.flags) n0 nq d.calls) (input_offers (newInput d.flags) n0 nq d.calls)

theorem pub_core (d : PubDecl) (p : Pub)
    (o1 : p.required = lastSays (onPub saysRequired) d.flags.req d.calls)
    (o2 : p.requiredConns = lastSays (onPub saysOutputCount) d.flags.count d.calls)
    (hl : Lists (p.subscribers.map (·.1)) (Subscribed d.calls)) : pubIssues d.key p = [] ↔ d.Met := by
  unfold pubIssues
  have hlen : (p.subscribers.map (·.1)).length = p.subscribers.length := by simp
  rw [List.append_eq_nil_iff]
  have e1 : ((if p.required then (if p.subscribers.isEmpty then [Issue.pubRequired d.key] else []) else []) = []) ↔
      (lastSays (onPub saysRequired) d.flags.req d.calls = true → ∃ h, Subscribed d.calls h) := by
    rw [← o1]
    have : (∃ h, Subscribed d.calls h) ↔ p.subscribers ≠ [] := by
      constructor
      · rintro ⟨h, hh⟩ e
        have := (hl.2 h).2 hh
        simp [e] at this
      · intro e
        cases hs : p.subscribers with
        | nil => exact absurd hs e
        | cons s ss => exact ⟨s.1, (hl.2 _).1 (by simp [hs])⟩
    rw [this]
    cases p.required <;> cases p.subscribers <;> simp
  have e2 : ((if p.requiredConns > 0 then
      (if (p.subscribers.length : Int) ≠ p.requiredConns then
        (if p.requiredConns = 1 then [Issue.pubSingle d.key] else [.pubCount d.key p.requiredConns p.subscribers.length])
      else []) else []) = []) ↔
      (lastSays (onPub saysOutputCount) d.flags.count d.calls > 0 → ∀ L, Lists L (Subscribed d.calls) →
        (L.length : Int) = lastSays (onPub saysOutputCount) d.flags.count d.calls) := by
    rw [← o2]
    by_cases h1 : p.requiredConns > 0
    · by_cases h2 : (p.subscribers.length : Int) = p.requiredConns
      · simp only [h1, h2, ne_eq, not_true, if_true, if_false, true_iff, true_imp_iff]
        intro L hL
        rw [hL.length_eq hl, hlen]; exact h2
      · have : ¬ ∀ L, Lists L (Subscribed d.calls) → (L.length : Int) = p.requiredConns :=
          fun h => h2 (by rw [← hlen]; exact h _ hl)
        simp only [h1, h2, ne_eq, not_false_eq_true, if_true, true_imp_iff, this, iff_false]
        split <;> simp
    · simp [h1]
  rw [e1, e2]
  exact ⟨fun ⟨a, b⟩ => ⟨a, b⟩, fun ⟨a, b⟩ => ⟨a, b⟩⟩

/-- C66 (publications): a publication has no issue exactly when its requirements are met, after every history of calls on it. -/
theorem C66_publication (d : PubDecl) : pubIssues d.key d.now = [] ↔ d.Met := by
  obtain ⟨n0, nr, nc⟩ := newPub_opts d.flags
  obtain ⟨o1, o2⟩ := pub_opts (newPub d.flags) d.calls
  exact pub_core d _ (o1.trans (by rw [nr])) (o2.trans (by rw [nc])) (Pub.C35_subscribers _ n0 d.calls)

theorem ept_core (d : EptDecl) (e : Endpoint)
    (o1 : e.required = lastSays (onEpt saysRequired) d.flags.req d.calls)
    (o2 : e.requiredConns = lastSays (onEpt saysOutputCount) d.flags.count d.calls)
    (o3 : e.targeted = d.flags.targeted)
    (hD : Lists (e.targetInfo.map (·.id)) (SendsTo d.calls)) (hS : Lists (e.sources.map (·.id)) (HearsFrom d.calls)) :
    eptIssues d.key e = [] ↔ d.Met := by
  unfold eptIssues
  rw [o3]
  cases ht : d.flags.targeted with
  | false => simp only [Bool.not_false, if_true, true_iff]; exact ⟨fun h => by simp [ht] at h, fun h => by simp [ht] at h⟩
  | true =>
    simp only [Bool.not_true, Bool.false_eq_true, if_false]
    have hU : Lists (e.sources.map (·.id) ++ e.targetInfo.map (·.id)).eraseDups (fun h => SendsTo d.calls h ∨ HearsFrom d.calls h) := by
      refine ⟨nodup_eraseDups _, fun h => ?_⟩
      rw [List.mem_eraseDups, List.mem_append, hD.2 h, hS.2 h]
      exact Or.comm
    have lD : (e.targetInfo.map (·.id)).length = e.targetInfo.length := by simp
    have lS : (e.sources.map (·.id)).length = e.sources.length := by simp
    have leD : e.targetInfo.length ≤ (e.sources.map (·.id) ++ e.targetInfo.map (·.id)).eraseDups.length := by
      rw [← lD]; exact length_le hD.1 fun x hx => (hU.2 x).2 (.inl ((hD.2 x).1 hx))
    have leS : e.sources.length ≤ (e.sources.map (·.id) ++ e.targetInfo.map (·.id)).eraseDups.length := by
      rw [← lS]; exact length_le hS.1 fun x hx => (hU.2 x).2 (.inr ((hS.2 x).1 hx))
    generalize hu : (e.sources.map (·.id) ++ e.targetInfo.map (·.id)).eraseDups = U at *
    rw [List.append_eq_nil_iff]
    have e1 : ((if e.required then (if e.sources.isEmpty && e.targetInfo.isEmpty then [Issue.eptRequired d.key] else []) else []) = []) ↔
        (lastSays (onEpt saysRequired) d.flags.req d.calls = true → ∃ h, SendsTo d.calls h ∨ HearsFrom d.calls h) := by
      rw [← o1]
      have : (∃ h, SendsTo d.calls h ∨ HearsFrom d.calls h) ↔ ¬ (e.sources = [] ∧ e.targetInfo = []) := by
        constructor
        · rintro ⟨h, hh⟩ ⟨a, b⟩
          rcases hh with hh | hh
          · have := (hD.2 h).2 hh; simp [b] at this
          · have := (hS.2 h).2 hh; simp [a] at this
        · intro hne
          cases hs : e.sources with
          | cons s ss => exact ⟨s.id, .inr ((hS.2 _).1 (by simp [hs]))⟩
          | nil =>
            cases hd : e.targetInfo with
            | cons s ss => exact ⟨s.id, .inl ((hD.2 _).1 (by simp [hd]))⟩
            | nil => exact absurd ⟨hs, hd⟩ hne
      rw [this]
      cases e.required <;> cases e.sources <;> cases e.targetInfo <;> simp
    have e2 : ((if e.requiredConns > 0 then
        if ((max e.targetInfo.length e.sources.length : Nat) : Int) > e.requiredConns then
          (if e.requiredConns = 1 then [Issue.eptSingle d.key] else [.eptAtLeast d.key e.requiredConns (max e.targetInfo.length e.sources.length)])
        else if ((e.targetInfo.length + e.sources.length : Nat) : Int) ≠ e.requiredConns then
          if (U.length : Int) ≠ e.requiredConns then [.eptOnly d.key e.requiredConns U.length] else []
        else []
        else []) = []) ↔
        (lastSays (onEpt saysOutputCount) d.flags.count d.calls > 0 →
          ∀ D S U, Lists D (SendsTo d.calls) → Lists S (HearsFrom d.calls) → Lists U (fun h => SendsTo d.calls h ∨ HearsFrom d.calls h) →
            ((D.length + S.length : Nat) : Int) = lastSays (onEpt saysOutputCount) d.flags.count d.calls ∨
            (U.length : Int) = lastSays (onEpt saysOutputCount) d.flags.count d.calls) := by
      rw [← o2]
      by_cases h1 : e.requiredConns > 0
      · have hkey : (∀ D S U, Lists D (SendsTo d.calls) → Lists S (HearsFrom d.calls) → Lists U (fun h => SendsTo d.calls h ∨ HearsFrom d.calls h) →
            ((D.length + S.length : Nat) : Int) = e.requiredConns ∨ (U.length : Int) = e.requiredConns) ↔
            (((e.targetInfo.length + e.sources.length : Nat) : Int) = e.requiredConns ∨ (U.length : Int) = e.requiredConns) := by
          constructor
          · intro H
            have := H _ _ _ hD hS hU
            rwa [lD, lS] at this
          · intro H D S U' a b c
            rw [a.length_eq hD, b.length_eq hS, c.length_eq hU, lD, lS]; exact H
        simp only [h1, if_true, true_imp_iff, hkey]
        by_cases h2 : ((max e.targetInfo.length e.sources.length : Nat) : Int) > e.requiredConns
        · have : ¬ (((e.targetInfo.length + e.sources.length : Nat) : Int) = e.requiredConns ∨ (U.length : Int) = e.requiredConns) := by omega
          simp only [h2, if_true, this, iff_false]
          split <;> simp
        · simp only [h2, if_false]
          by_cases h3 : ((e.targetInfo.length + e.sources.length : Nat) : Int) = e.requiredConns
          · simp [h3]
          · by_cases h4 : (U.length : Int) = e.requiredConns <;> simp [h3, h4]
      · simp [h1]
    simp only [e1, e2]
    exact ⟨fun ⟨a, b⟩ => ⟨fun _ => a, fun _ => b⟩, fun ⟨a, b⟩ => ⟨a ht, b ht⟩⟩

/-- C66 (endpoints): an endpoint has no issue exactly when its requirements are met, after every history of calls on it. -/
theorem C66_endpoint (d : EptDecl) : eptIssues d.key d.now = [] ↔ d.Met := by
  obtain ⟨n0, n1, n2, nr, nc, nt⟩ := newEpt_opts d.flags
  obtain ⟨o1, o2, o3⟩ := ept_opts (newEpt d.flags) d.calls
  obtain ⟨hD, hS⟩ := ept_lists (newEpt d.flags) n0 n1 n2 d.calls
  exact ept_core d _ (o1.trans (by rw [nr])) (o2.trans (by rw [nc])) (o3.trans nt) hD hS

/-! ## The federate -/

/-- C66: the federate enters initializing mode exactly when every requirement of every interface is met. -/
theorem C66_enters_iff (conv : String → String → Bool) (f : Ifs) : enterInit conv f = .initializing ↔ f.Met conv := by
  have h : enterInit conv f = .initializing ↔ issues conv f = [] := by
    unfold enterInit; cases issues conv f <;> simp
  rw [h]
  unfold issues Ifs.Met
  simp only [List.append_eq_nil_iff, List.flatMap_eq_nil_iff, C66_input, C66_publication, C66_endpoint, and_assoc]

theorem split_first {α : Type} (l : List α) (g : α → List Issue) (h : l.flatMap g ≠ []) :
    ∃ a d b x rest, l = a ++ d :: b ∧ (∀ y ∈ a, g y = []) ∧ g d = x :: rest ∧ ∃ r, l.flatMap g = x :: r := by
  induction l with
  | nil => exact absurd rfl h
  | cons y ys ih =>
    cases hg : g y with
    | cons x rest => exact ⟨[], y, ys, x, rest, rfl, by simp, hg, by simp [hg]⟩
    | nil =>
      obtain ⟨a, d, b, x, rest, e1, e2, e3, r, e4⟩ := ih (by simpa [hg] using h)
      exact ⟨y :: a, d, b, x, rest, by rw [e1]; rfl, by
        intro z hz
        rcases List.mem_cons.1 hz with rfl | hz
        · exact hg
        · exact e2 z hz, e3, r, by simp [hg, e4]⟩

theorem input_key (conv : String → String → Bool) (f : InIf) : ∀ x ∈ inputIssues conv f, x.key = f.key := by
  intro x hx
  unfold inputIssues at hx
  simp only [List.mem_append, List.mem_flatMap] at hx
  rcases hx with (hx | hx) | ⟨s, _, hx | hx⟩
  · split at hx
    · split at hx
      · rw [List.mem_singleton] at hx; rw [hx]; rfl
      · cases hx
    · cases hx
  · split at hx
    · split at hx
      · split at hx <;> (rw [List.mem_singleton] at hx; rw [hx]; rfl)
      · cases hx
    · cases hx
  · split at hx
    · rw [List.mem_singleton] at hx; rw [hx]; rfl
    · cases hx
  · split at hx
    · rw [List.mem_singleton] at hx; rw [hx]; rfl
    · cases hx

theorem pub_key (key : String) (p : Pub) : ∀ x ∈ pubIssues key p, x.key = key := by
  intro x hx
  unfold pubIssues at hx
  simp only [List.mem_append] at hx
  rcases hx with hx | hx
  · split at hx
    · split at hx
      · rw [List.mem_singleton] at hx; rw [hx]; rfl
      · cases hx
    · cases hx
  · split at hx
    · split at hx
      · split at hx <;> (rw [List.mem_singleton] at hx; rw [hx]; rfl)
      · cases hx
    · cases hx

theorem ept_key (key : String) (e : Endpoint) : ∀ x ∈ eptIssues key e, x.key = key := by
  intro x hx
  unfold eptIssues at hx
  split at hx
  · cases hx
  · simp only [List.mem_append] at hx
    rcases hx with hx | hx
    · split at hx
      · split at hx
        · rw [List.mem_singleton] at hx; rw [hx]; rfl
        · cases hx
      · cases hx
    · repeat' split at hx
      all_goals first | (rw [List.mem_singleton] at hx; rw [hx]; rfl) | cases hx

/-- C66: when a requirement is not met the federate ends in the error state with the code for a failed connection, and the message is about
the first interface whose requirements are not met, in the order inputs, publications, endpoints, each in order of registration. -/
theorem C66_refused (conv : String → String → Bool) (f : Ifs) (h : ¬ f.Met conv) :
    ∃ x : Issue, enterInit conv f = .errored (-2) x.text ∧
      ((∃ a d b, f.inputs = a ++ d :: b ∧ (∀ y ∈ a, y.Met conv) ∧ ¬ d.Met conv ∧ x.key = d.key) ∨
       ((∀ y ∈ f.inputs, y.Met conv) ∧ ∃ a d b, f.pubs = a ++ d :: b ∧ (∀ y ∈ a, y.Met) ∧ ¬ d.Met ∧ x.key = d.key) ∨
       ((∀ y ∈ f.inputs, y.Met conv) ∧ (∀ y ∈ f.pubs, y.Met) ∧
          ∃ a d b, f.epts = a ++ d :: b ∧ (∀ y ∈ a, y.Met) ∧ ¬ d.Met ∧ x.key = d.key)) := by
  have hne : issues conv f ≠ [] := by
    intro he
    exact h ((C66_enters_iff conv f).1 (by unfold enterInit; rw [he]))
  have key : ∀ x r, issues conv f = x :: r → enterInit conv f = .errored (-2) x.text := by
    intro x r e; unfold enterInit; rw [e]
  by_cases h1 : f.inputs.flatMap (fun d => inputIssues conv d.now) = []
  · by_cases h2 : f.pubs.flatMap (fun d => pubIssues d.key d.now) = []
    · have h3 : f.epts.flatMap (fun d => eptIssues d.key d.now) ≠ [] := by
        intro h3; exact hne (by unfold issues; rw [h1, h2, h3]; rfl)
      obtain ⟨a, d, b, x, rest, e1, e2, e3, r, e4⟩ := split_first _ _ h3
      refine ⟨x, key x r (by unfold issues; rw [h1, h2, e4]; rfl), .inr (.inr ⟨?_, ?_, a, d, b, e1, ?_, ?_, ?_⟩)⟩
      · exact fun y hy => (C66_input conv y).1 (List.flatMap_eq_nil_iff.1 h1 y hy)
      · exact fun y hy => (C66_publication y).1 (List.flatMap_eq_nil_iff.1 h2 y hy)
      · exact fun y hy => (C66_endpoint y).1 (e2 y hy)
      · intro hm; rw [(C66_endpoint d).2 hm] at e3; cases e3
      · exact ept_key d.key d.now x (by rw [e3]; simp)
    · obtain ⟨a, d, b, x, rest, e1, e2, e3, r, e4⟩ := split_first _ _ h2
      refine ⟨x, key x _ (by unfold issues; rw [h1, e4]; rfl), .inr (.inl ⟨?_, a, d, b, e1, ?_, ?_, ?_⟩)⟩
      · exact fun y hy => (C66_input conv y).1 (List.flatMap_eq_nil_iff.1 h1 y hy)
      · exact fun y hy => (C66_publication y).1 (e2 y hy)
      · intro hm; rw [(C66_publication d).2 hm] at e3; cases e3
      · exact pub_key d.key d.now x (by rw [e3]; simp)
  · obtain ⟨a, d, b, x, rest, e1, e2, e3, r, e4⟩ := split_first _ _ h1
    refine ⟨x, key x _ (by unfold issues; rw [e4]; rfl), .inl ⟨a, d, b, e1, ?_, ?_, ?_⟩⟩
    · exact fun y hy => (C66_input conv y).1 (e2 y hy)
    · intro hm; rw [(C66_input conv d).2 hm] at e3; cases e3
    · exact input_key conv d.now x (by rw [e3]; simp)

/-! ## The messages -/

theorem input_says_core (conv : String → String → Bool) (d : InDecl) (i : Input)
    (o1 : i.required = lastSays (onInput saysRequired) d.flags.req d.calls)
    (o2 : i.requiredConns = lastSays (onInput saysInputCount) d.flags.count d.calls)
    (o3 : i.strictType = lastSays (onInput saysStrict) false d.calls)
    (o4 : i.ignoreUnit = lastSays (onInput saysIgnoreUnit) false d.calls)
    (hl : Lists (i.srcs.map (·.handle)) (EverConnected d.calls)) (ho : ∀ h, tagOf i.srcs h = offers d.calls h) :
    ∀ x ∈ inputIssues conv { key := d.key, type := d.type, units := d.units, ipt := i }, d.Says conv x := by
  intro x hx
  unfold inputIssues at hx
  simp only [List.mem_append, List.mem_flatMap] at hx
  have hlen : (i.srcs.map (·.handle)).length = i.srcs.length := by simp
  rcases hx with (hx | hx) | ⟨s, hs, hx | hx⟩
  · split at hx
    · rename_i hr
      split at hx
      · rename_i he
        rw [List.mem_singleton] at hx; subst hx
        refine ⟨by rw [← o1]; exact hr, fun h hh => ?_⟩
        have := (hl.2 h).2 hh
        rw [List.isEmpty_iff.1 he] at this
        simp at this
      · cases hx
    · cases hx
  · split at hx
    · rename_i hp
      split at hx
      · rename_i hne
        split at hx
        · rename_i h1
          rw [List.mem_singleton] at hx; subst hx
          refine ⟨by rw [← o2]; exact h1, fun L hL => ?_⟩
          rw [hL.length_eq hl, hlen]; omega
        · rename_i h1
          rw [List.mem_singleton] at hx; subst hx
          refine ⟨o2.symm, by omega, fun L hL => ⟨?_, hne⟩⟩
          rw [hL.length_eq hl, hlen]
      · cases hx
    · cases hx
  · split at hx
    · rename_i hc
      rw [List.mem_singleton] at hx; subst hx
      obtain ⟨h, hh⟩ := (mem_tagOf hl.1 s.type s.units).1 ⟨s, hs, rfl, rfl⟩
      refine ⟨rfl, ⟨h, s.units, by rw [← ho]; exact hh⟩, ?_⟩
      rw [← C66_type_rule, ← o3]
      simpa using hc
    · cases hx
  · split at hx
    · rename_i hc
      rw [List.mem_singleton] at hx; subst hx
      obtain ⟨h, hh⟩ := (mem_tagOf hl.1 s.type s.units).1 ⟨s, hs, rfl, rfl⟩
      simp only [Bool.and_eq_true, Bool.not_eq_true'] at hc
      refine ⟨rfl, ⟨h, s.type, by rw [← ho]; exact hh⟩, ?_, by rw [← o4]; exact hc.1⟩
      rw [← C66_unit_rule]
      simp [hc.2]
    · cases hx

theorem input_says (conv : String → String → Bool) (d : InDecl) : ∀ x ∈ inputIssues conv d.now, d.Says conv x := by
  obtain ⟨n0, nq, nr, nc, ns, nu⟩ := newInput_opts d.flags
  obtain ⟨o1, o2, o3, o4⟩ := input_opts (newInput d.flags) n0 nq d.calls
  exact input_says_core conv d _ (o1.trans (by rw [nr])) (o2.trans (by rw [nc])) (o3.trans (by rw [ns])) (o4.trans (by rw [nu]))
    (input_handles (newInput d.flags) n0 nq d.calls) (input_offers (newInput d.flags) n0 nq d.calls)

theorem pub_says_core (d : PubDecl) (p : Pub)
    (o1 : p.required = lastSays (onPub saysRequired) d.flags.req d.calls)
    (o2 : p.requiredConns = lastSays (onPub saysOutputCount) d.flags.count d.calls)
    (hl : Lists (p.subscribers.map (·.1)) (Subscribed d.calls)) : ∀ x ∈ pubIssues d.key p, d.Says x := by
  intro x hx
  unfold pubIssues at hx
  simp only [List.mem_append] at hx
  have hlen : (p.subscribers.map (·.1)).length = p.subscribers.length := by simp
  rcases hx with hx | hx
  · split at hx
    · rename_i hr
      split at hx
      · rename_i he
        rw [List.mem_singleton] at hx; subst hx
        refine ⟨by rw [← o1]; exact hr, fun h hh => ?_⟩
        have := (hl.2 h).2 hh
        rw [List.isEmpty_iff.1 he] at this
        simp at this
      · cases hx
    · cases hx
  · split at hx
    · rename_i hp
      split at hx
      · rename_i hne
        split at hx
        · rename_i h1
          rw [List.mem_singleton] at hx; subst hx
          refine ⟨by rw [← o2]; exact h1, fun L hL => ?_⟩
          rw [hL.length_eq hl, hlen]; omega
        · rename_i h1
          rw [List.mem_singleton] at hx; subst hx
          refine ⟨o2.symm, by omega, fun L hL => ⟨?_, hne⟩⟩
          rw [hL.length_eq hl, hlen]
      · cases hx
    · cases hx

theorem pub_says (d : PubDecl) : ∀ x ∈ pubIssues d.key d.now, d.Says x := by
  obtain ⟨n0, nr, nc⟩ := newPub_opts d.flags
  obtain ⟨o1, o2⟩ := pub_opts (newPub d.flags) d.calls
  exact pub_says_core d _ (o1.trans (by rw [nr])) (o2.trans (by rw [nc])) (Pub.C35_subscribers _ n0 d.calls)

theorem ept_says (d : EptDecl) : ∀ x ∈ eptIssues d.key d.now, d.Says x := by
  obtain ⟨n0, n1, n2, nr, nc, nt⟩ := newEpt_opts d.flags
  obtain ⟨o1, o2, o3⟩ := ept_opts (newEpt d.flags) d.calls
  obtain ⟨hD, hS⟩ := ept_lists (newEpt d.flags) n0 n1 n2 d.calls
  rw [nr] at o1; rw [nc] at o2; rw [nt] at o3
  have hU : Lists (d.now.sources.map (·.id) ++ d.now.targetInfo.map (·.id)).eraseDups (fun h => SendsTo d.calls h ∨ HearsFrom d.calls h) := by
    refine ⟨nodup_eraseDups _, fun h => ?_⟩
    rw [List.mem_eraseDups, List.mem_append]
    exact ⟨fun h' => h'.elim (fun a => .inr ((hS.2 h).1 a)) (fun a => .inl ((hD.2 h).1 a)),
      fun h' => h'.elim (fun a => .inr ((hD.2 h).2 a)) (fun a => .inl ((hS.2 h).2 a))⟩
  have lD : (d.now.targetInfo.map (·.id)).length = d.now.targetInfo.length := by simp
  have lS : (d.now.sources.map (·.id)).length = d.now.sources.length := by simp
  change d.now.required = _ at o1
  change d.now.requiredConns = _ at o2
  change Lists (d.now.targetInfo.map (·.id)) _ at hD
  change Lists (d.now.sources.map (·.id)) _ at hS
  intro x hx
  unfold eptIssues at hx
  split at hx
  · cases hx
  · simp only [List.mem_append] at hx
    rcases hx with hx | hx
    · split at hx
      · rename_i hr
        split at hx
        · rename_i he
          rw [List.mem_singleton] at hx; subst hx
          simp only [Bool.and_eq_true, List.isEmpty_iff] at he
          refine ⟨by rw [← o1]; exact hr, fun h => ⟨fun hh => ?_, fun hh => ?_⟩⟩
          · have := (hD.2 h).2 hh
            rw [he.2] at this; simp at this
          · have := (hS.2 h).2 hh
            rw [he.1] at this; simp at this
        · cases hx
      · cases hx
    · split at hx
      · rename_i hp
        split at hx
        · rename_i hm
          split at hx
          · rename_i h1
            rw [List.mem_singleton] at hx; subst hx
            refine ⟨by rw [← o2]; exact h1, fun D S a b => ?_⟩
            rw [a.length_eq hD, b.length_eq hS, lD, lS]; omega
          · rename_i h1
            rw [List.mem_singleton] at hx; subst hx
            refine ⟨o2.symm, by omega, hm, fun D S a b => ?_⟩
            rw [a.length_eq hD, b.length_eq hS, lD, lS]
        · split at hx
          · split at hx
            · rename_i h4
              rw [List.mem_singleton] at hx; subst hx
              refine ⟨o2.symm, h4, fun U hu => ?_⟩
              rw [hu.length_eq hU]
            · cases hx
          · cases hx
      · cases hx

/-- C66: the message of the error is true: it names an interface of the federate, and what it says about it is so. -/
theorem C66_message (conv : String → String → Bool) (f : Ifs) (code : Int) (m : String) (h : enterInit conv f = .errored code m) :
    ∃ x : Issue, m = x.text ∧
      ((∃ d ∈ f.inputs, x.key = d.key ∧ d.Says conv x) ∨ (∃ d ∈ f.pubs, x.key = d.key ∧ d.Says x) ∨
       (∃ d ∈ f.epts, x.key = d.key ∧ d.Says x)) := by
  unfold enterInit at h
  cases hi : issues conv f with
  | nil => rw [hi] at h; cases h
  | cons x r =>
    rw [hi] at h
    simp only [Entry.errored.injEq] at h
    have hx : x ∈ issues conv f := by rw [hi]; simp
    refine ⟨x, h.2.symm, ?_⟩
    unfold issues at hx
    simp only [List.mem_append, List.mem_flatMap] at hx
    rcases hx with (⟨d, hd, hx⟩ | ⟨d, hd, hx⟩) | ⟨d, hd, hx⟩
    · exact .inl ⟨d, hd, input_key conv d.now x hx, input_says conv d x hx⟩
    · exact .inr (.inl ⟨d, hd, pub_key d.key d.now x hx, pub_says d x hx⟩)
    · exact .inr (.inr ⟨d, hd, ept_key d.key d.now x hx, ept_says d x hx⟩)

end Verif.Checks
