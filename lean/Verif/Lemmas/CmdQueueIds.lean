import Verif.Lemmas.CmdQueueInv
import Verif.Props.QueueSpec
/-
Command queue: nothing lost, nothing twice, order.
-/
namespace Verif.CmdQueue

/-- The commands that have left, newest first. -/
def goneList (h : List (Ev α)) : List (Item α) :=
  h.filterMap (fun | .took i => some i | .dropped i => some i | _ => none)

theorem mem_goneList {h : List (Ev α)} {x : Item α} : x ∈ goneList h ↔ gone h x := by
  simp only [goneList, List.mem_filterMap, gone]
  constructor
  · rintro ⟨e, he, hx⟩
    cases e <;> simp_all
  · rintro (h | h)
    · exact ⟨_, h, rfl⟩
    · exact ⟨_, h, rfl⟩

/-- Everything that ever got into the structures. -/
def All (s : St α) : List (Item α) := goneList s.hist ++ (s.pull ++ (s.push ++ s.prio))

/-- The command a thread is about to put in. -/
def pend : PC α → Option (Item α)
  | .pushLock i | .pushLook i | .pushRel i | .pushPull i | .pushSet i | .pushPut i | .pushLockB i
  | .pushPutB i | .prioCas i | .prioLockA i | .prioSetA i | .prioPutA i | .prioLockB i
  | .prioPutB i => some i
  | _ => none

/-- The command a thread has put in, while its call has not returned. -/
def held : PC α → Option (Item α)
  | .pushDone i | .pushRelA i | .pushRelB i | .pushCas i | .pushNote i | .pushEnd i
  | .prioCasB i | .prioNote i | .prioEnd i => some i
  | _ => none

/-- The class of command a thread is pushing. -/
def kindOk : PC α → Bool
  | .pushLock i | .pushLook i | .pushRel i | .pushPull i | .pushSet i | .pushPut i | .pushLockB i
  | .pushPutB i | .pushDone i | .pushRelA i | .pushRelB i | .pushCas i | .pushNote i | .pushEnd i => !i.prio
  | .prioCas i | .prioLockA i | .prioSetA i | .prioPutA i | .prioLockB i
  | .prioPutB i | .prioCasB i | .prioNote i | .prioEnd i => i.prio
  | _ => true

@[simp] theorem pend_noted (p : PC α) : pend (noted p) = pend p := by cases p <;> rfl
@[simp] theorem held_noted (p : PC α) : held (noted p) = held p := by cases p <;> rfl
@[simp] theorem kindOk_noted (p : PC α) : kindOk (noted p) = kindOk p := by cases p <;> rfl

theorem goneList_dropped (l : List (Item α)) (h : List (Ev α)) :
    goneList (l.map Ev.dropped ++ h) = l ++ goneList h := by
  induction l with
  | nil => rfl
  | cons a l ih => simp only [goneList, List.map_cons, List.cons_append, List.filterMap_cons] at *; rw [ih]

theorem goneList_took (i : Item α) (h : List (Ev α)) : goneList (.took i :: h) = i :: goneList h := rfl

theorem goneList_cons (e : Ev α) (h : List (Ev α)) :
    goneList (e :: h) = (match e with | .took i => [i] | .dropped i => [i] | _ => []) ++ goneList h := by
  cases e <;> rfl

/-- What a step puts into the structures. -/
def put : Option (Item α) → Option (Item α) → List (Item α)
  | some i, none => [i]
  | _, _ => []

theorem all_step {s s' : St α} {t : Nat} (st : Step s t s') :
    (All s').Perm (put (pend (s.pcs t)) (pend (s'.pcs t)) ++ All s) := by
  classical
  rw [List.perm_iff_count]
  intro a
  cases st <;> simp_all [All, pend, put, upd, goneList_dropped, goneList_cons, List.count_append,
    List.count_cons] <;> omega

/-- How a step changes what its thread is about to put in. -/
theorem pend_step {s s' : St α} {t : Nat} (st : Step s t s') :
    (pend (s'.pcs t) = pend (s.pcs t) ∧ held (s'.pcs t) = held (s.pcs t)) ∨
    (pend (s.pcs t) = none ∧ pend (s'.pcs t) = none ∧ held (s'.pcs t) = none ∧
      ((∃ i, held (s.pcs t) = some i ∧ s'.hist = .returned i :: s.hist))) ∨
    (pend (s.pcs t) = none ∧ held (s.pcs t) = none ∧ held (s'.pcs t) = none ∧ s'.next = s.next + 1 ∧
      ∃ v b, pend (s'.pcs t) = some ⟨s.next, b, v⟩ ∧ s'.hist = .called ⟨s.next, b, v⟩ :: s.hist) ∨
    (∃ i, pend (s.pcs t) = some i ∧ pend (s'.pcs t) = none ∧ held (s'.pcs t) = some i ∧
      held (s.pcs t) = none) := by
  cases st <;> simp_all [pend, held, upd]

theorem other_step {s s' : St α} {t u : Nat} (st : Step s t s') (hu : u ≠ t) :
    s'.pcs u = s.pcs u ∨ s'.pcs u = noted (s.pcs u) := by
  cases st <;> simp [upd, hu]

theorem other_pend {s s' : St α} {t u : Nat} (st : Step s t s') (hu : u ≠ t) :
    pend (s'.pcs u) = pend (s.pcs u) ∧ held (s'.pcs u) = held (s.pcs u) ∧
      kindOk (s'.pcs u) = kindOk (s.pcs u) := by
  rcases other_step st hu with h | h <;> rw [h] <;> simp

theorem called_step {s s' : St α} {t : Nat} (st : Step s t s') (x : Item α) :
    Ev.called x ∈ s'.hist ↔ Ev.called x ∈ s.hist ∨
      (pend (s.pcs t) = none ∧ held (s.pcs t) = none ∧ pend (s'.pcs t) = some x ∧ x.id = s.next ∧
        s'.next = s.next + 1) := by
  cases st <;> simp_all [pend, held, upd] <;> grind

theorem returned_step {s s' : St α} {t : Nat} (st : Step s t s') (x : Item α) :
    Ev.returned x ∈ s'.hist ↔ Ev.returned x ∈ s.hist ∨
      (held (s.pcs t) = some x ∧ held (s'.pcs t) = none) := by
  cases st <;> simp_all [pend, held, upd] <;> grind

theorem next_step {s s' : St α} {t : Nat} (st : Step s t s') : s.next ≤ s'.next := by
  cases st <;> simp

theorem kind_step {s s' : St α} {t : Nat} (st : Step s t s') (h : kindOk (s.pcs t) = true) :
    kindOk (s'.pcs t) = true := by
  cases st <;> simp_all [kindOk, upd]

theorem hist_suffix {s s' : St α} {t : Nat} (st : Step s t s') : ∃ es, s'.hist = es ++ s.hist := by
  cases st <;> first | exact ⟨[], rfl⟩ | exact ⟨[_], rfl⟩ | exact ⟨_, rfl⟩

theorem gone_step {s s' : St α} {t : Nat} (st : Step s t s') {x : Item α} (h : gone s.hist x) :
    gone s'.hist x := by
  obtain ⟨es, he⟩ := hist_suffix st
  rw [he]
  rcases h with h | h
  · exact .inl (List.mem_append_right _ h)
  · exact .inr (List.mem_append_right _ h)

/-- Who is where. -/
structure Ids (s : St α) : Prop where
  nd : (All s).Nodup
  allCalled : ∀ x ∈ All s, Ev.called x ∈ s.hist
  pendCalled : ∀ u x, pend (s.pcs u) = some x → Ev.called x ∈ s.hist
  fresh : ∀ x, Ev.called x ∈ s.hist → x.id < s.next
  pendOut : ∀ u x, pend (s.pcs u) = some x → x ∉ All s
  pendInj : ∀ u v x, pend (s.pcs u) = some x → pend (s.pcs v) = some x → u = v
  heldIn : ∀ u x, held (s.pcs u) = some x → x ∈ All s
  heldInj : ∀ u v x, held (s.pcs u) = some x → held (s.pcs v) = some x → u = v
  heldNew : ∀ u x, held (s.pcs u) = some x → Ev.returned x ∉ s.hist
  ret : ∀ x, Ev.returned x ∈ s.hist → x ∈ All s
  kind : ∀ u, kindOk (s.pcs u) = true
  kindA : ∀ x, x ∈ s.pull ∨ x ∈ s.push → x.prio = false
  kindP : ∀ x ∈ s.prio, x.prio = true

theorem kindA_step {s s' : St α} {t : Nat} (h : Ids s) (st : Step s t s') :
    ∀ x, x ∈ s'.pull ∨ x ∈ s'.push → x.prio = false := by
  intro x
  have h1 := h.kindA x
  have h2 := h.kind t
  cases st <;> grind [kindOk, List.mem_append, List.mem_reverse]

theorem kindP_step {s s' : St α} {t : Nat} (h : Ids s) (st : Step s t s') :
    ∀ x ∈ s'.prio, x.prio = true := by
  intro x
  have h1 := h.kindP x
  have h2 := h.kind t
  cases st <;> grind [kindOk, List.mem_append, List.mem_cons]

theorem mem_put {a b : Option (Item α)} {x : Item α} : x ∈ put a b ↔ a = some x ∧ b = none := by
  cases a <;> cases b <;> simp [put, eq_comm]

theorem ids_step {s s' : St α} {t : Nat} (h : Ids s) (st : Step s t s') : Ids s' := by
  have hA : ∀ x, x ∈ All s' ↔ (pend (s.pcs t) = some x ∧ pend (s'.pcs t) = none) ∨ x ∈ All s := by
    intro x
    rw [(all_step st).mem_iff, List.mem_append, mem_put]
  have hc := called_step st
  have hr := returned_step st
  have hn := next_step st
  have hp := pend_step st
  have ho := fun u hu => other_pend (u := u) st hu
  have k1 := h.allCalled
  have k2 := h.pendCalled
  have k3 := h.fresh
  have k4 := h.pendOut
  have k5 := h.pendInj
  have k6 := h.heldIn
  have k7 := h.heldInj
  have k8 := h.heldNew
  have k9 := h.ret
  refine ⟨?_, ?_, ?_, ?_, ?_, ?_, ?_, ?_, ?_, ?_, ?_, kindA_step h st, kindP_step h st⟩
  · rw [(all_step st).nodup_iff]
    cases hpt : pend (s.pcs t) with
    | none => simpa [put] using h.nd
    | some i =>
      cases hpt' : pend (s'.pcs t) with
      | none =>
        simp only [put, List.cons_append, List.nil_append, List.nodup_cons]
        exact ⟨h.pendOut _ _ hpt, h.nd⟩
      | some j => simpa [put] using h.nd
  · intro x hx
    grind
  · intro u x hx
    by_cases hu : u = t
    · subst hu; grind
    · have := ho u hu; grind
  · intro x hx
    grind
  · intro u x hx
    by_cases hu : u = t
    · subst hu; grind
    · have := ho u hu; grind
  · intro u v x hx hy
    by_cases hu : u = t <;> by_cases hv : v = t
    · rw [hu, hv]
    · have := ho v hv; grind
    · have := ho u hu; grind
    · have := ho v hv; have := ho u hu; grind
  · intro u x hx
    by_cases hu : u = t
    · subst hu; grind
    · have := ho u hu; grind
  · intro u v x hx hy
    by_cases hu : u = t <;> by_cases hv : v = t
    · rw [hu, hv]
    · have := ho v hv; grind
    · have := ho u hu; grind
    · have := ho v hv; have := ho u hu; grind
  · intro u x hx
    by_cases hu : u = t
    · subst hu; grind
    · have := ho u hu; grind
  · intro x hx
    grind
  · intro u
    by_cases hu : u = t
    · subst hu; exact kind_step st (h.kind _)
    · rw [(ho u hu).2.2]; exact h.kind u

end Verif.CmdQueue
