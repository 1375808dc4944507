import Verif.Lemmas.Handles
/-!
# C26: interface names are unique and lookups are consistent

A history of the interface table of a core or broker is any sequence of registrations (with a name or without, with
a chosen identifier or at a chosen index), removals of one interface or of everything a federate owns, and aliases.
An operation that throws is part of the history.  The specification keeps two lists: `R`, the interfaces whose
registration succeeded and that have not been removed, and `A`, the pairs that were declared as aliases.
-/
namespace Verif
namespace HM

/-- an interface as the user knows it: its record, and where the table put it -/
structure Entry where
  idx : Nat
  info : HInfo
  deriving DecidableEq, Repr

/-- a registration call -/
inductive RegOp
  | add (fed : Int) (k : IfKind) (key : IName) (flags : BitVec 16)
  | addId (g : GHandle) (k : IfKind) (key : IName) (flags : BitVec 16)
  | addAt (info : HInfo) (i : Nat)

/-- the call, on the model -/
def RegOp.run (hm : HM) : RegOp → HM × Bool
  | .add fed k key fl => hm.addHandle fed k key fl
  | .addId g k key fl => hm.addHandleId g k key fl
  | .addAt info i => hm.addHandleAtIndex info i

/-- what the caller asked for; without a name, the generated one -/
def RegOp.entry (hm : HM) : RegOp → Entry
  | .add fed k key fl =>
    ⟨hm.handles.length, ⟨⟨fed, hm.handles.length⟩, k, if key = [] then hm.generateName k else key, fl⟩⟩
  | .addId g k key fl => ⟨hm.handles.length, ⟨g, k, if key = [] then hm.generateName k else key, fl⟩⟩
  | .addAt info i => ⟨i, info⟩

/-- The identifier and the index of a new interface are not in use. -/
def fresh (R : List Entry) (e : Entry) : Prop := ∀ x ∈ R, x.idx ≠ e.idx ∧ x.info.gh ≠ e.info.gh

instance (R : List Entry) (e : Entry) : Decidable (fresh R e) :=
  inferInstanceAs (Decidable (∀ x ∈ R, x.idx ≠ e.idx ∧ x.info.gh ≠ e.info.gh))

/-- Histories.  `Hist hm R A bad`: the table `hm` is the result of a history whose live interfaces are `R`, whose
aliases are `A`, and in which `bad` counts the calls that threw and the removals after the first alias. -/
inductive Hist : HM → List Entry → List (IName × IName) → Nat → Prop
  | start : Hist {} [] [] 0
  | register {hm R A b} (x : RegOp) : Hist hm R A b → fresh R (x.entry hm) →
      Hist (x.run hm).1 (if (x.run hm).2 then x.entry hm :: R else R) A (if (x.run hm).2 then b else b + 1)
  | remove {hm R A b} (g : GHandle) : Hist hm R A b →
      Hist (hm.removeHandle g) (R.filter fun e => decide (e.info.gh ≠ g)) A (if A = [] then b else b + 1)
  | removeFed {hm R A b} (fed : Int) : Hist hm R A b →
      Hist (hm.removeFederateHandles fed) (R.filter fun e => decide (e.info.gh.fed ≠ fed)) A (if A = [] then b else b + 1)
  | alias {hm R A b} (n : Nat) (name al : IName) : Hist hm R A b →
      Hist (hm.addAlias (n + 1) name al).1
        (R) (if (hm.addAlias (n + 1) name al).2 then (name, al) :: (al, name) :: A else A)
        (if (hm.addAlias (n + 1) name al).2 then b else b + 1)

/-- the kinds of lookup that can find an interface of a kind (translators answer for publications, inputs and
endpoints, sinks for inputs and endpoints) -/
def serves : IfKind → List IfKind
  | .endpoint => [.endpoint] | .publication => [.publication] | .filter => [.filter] | .input => [.input]
  | .translator => [.translator, .publication, .input, .endpoint]
  | .sink => [.sink, .input, .endpoint]
  | .unknown => []

/-! ### The invariant -/

structure WF (hm : HM) (R : List Entry) (A : List (IName × IName)) : Prop where
  ids : ∀ g i, hm.ids.lookup g = some i ↔ ∃ e ∈ R, e.info.gh = g ∧ e.idx = i
  recs : ∀ e ∈ R, hm.handles[e.idx]? = some e.info
  names : ∀ e ∈ R, e.info.key ≠ [] → ∀ s ∈ slotsOf e.info.kind, (hm.map s).lookup e.info.key = some e.idx
  als : ∀ p ∈ A, p.1 ≠ p.2 → ∃ v, hm.aliases.lookup p.1 = some v ∧ p.2 ∈ v
  anames : ∀ p ∈ A, ∀ e ∈ R, e.info.key = p.1 → e.info.key ≠ [] → ∀ s ∈ slotsOf e.info.kind, (hm.map s).lookup p.2 = some e.idx
  idx : ∀ e ∈ R, ∀ e' ∈ R, e.idx = e'.idx → e = e'

theorem WF.start : WF {} [] [] := ⟨by simp, by simp, by simp, by simp, by simp, by simp⟩

/-- every call only adds to the maps, puts the new record in place and keeps the live ones -/
structure Put (hm hm' : HM) (e : Entry) (ok : Bool) : Prop where
  maps : ∀ s, Grows (hm.map s) (hm'.map s)
  aliases : hm'.aliases = hm.aliases
  other : ∀ i h, i ≠ e.idx → hm.handles[i]? = some h → hm'.handles[i]? = some h
  rec_ : hm'.handles[e.idx]? = some e.info
  bad : ok = false → hm'.ids = hm.ids
  ids : ok = true → hm'.ids = (tryEmplace hm.ids e.info.gh e.idx).1
  names : ok = true → e.info.key ≠ [] → ∀ s ∈ slotsOf e.info.kind, (hm'.map s).lookup e.info.key = some e.idx ∧
      ∀ a ∈ (hm.aliases.lookup e.info.key).getD [], (hm'.map s).lookup a = some e.idx

theorem put_fields (hm : HM) (l : List HInfo) (info : HInfo) (i : Nat)
    (h1 : ∀ j h, j ≠ i → hm.handles[j]? = some h → l[j]? = some h) (h2 : l[i]? = some info) :
    Put hm (addSearchFields { hm with handles := l } info i).1 ⟨i, info⟩ (addSearchFields { hm with handles := l } info i).2 := by
  obtain ⟨a, b, c, d, e⟩ := addSearchFields_facts { hm with handles := l } info i
  refine ⟨fun s => ?_, c, fun j h hj hh => ?_, ?_, d, fun h => (e h).1, fun h => (e h).2⟩
  · have := b s; cases s <;> exact this
  · rw [a]; exact h1 j h hj hh
  · rw [a]; exact h2

theorem getElem?_append_some {α : Type} {l k : List α} {i : Nat} {h : α} (e : l[i]? = some h) : (l ++ k)[i]? = some h := by
  obtain ⟨hl, rfl⟩ := List.getElem?_eq_some_iff.mp e
  rw [List.getElem?_append_left hl]; exact e

theorem put_push (hm : HM) (info : HInfo) : Put hm (hm.push info).1 ⟨hm.handles.length, info⟩ (hm.push info).2 := by
  apply put_fields
  · intro j h _ e; exact getElem?_append_some e
  · simp

theorem run_put (hm : HM) (x : RegOp) : Put hm (x.run hm).1 (x.entry hm) (x.run hm).2 := by
  cases x with
  | add fed k key fl =>
    have : (RegOp.add fed k key fl).entry hm = ⟨hm.handles.length, { gh := ⟨fed, hm.handles.length⟩, kind := k, key := hm.actKey k key, flags := fl }⟩ := by
      simp only [RegOp.entry, actKey]; by_cases h : key = [] <;> simp [h]
    rw [this]; exact put_push hm _
  | addId g k key fl =>
    have : (RegOp.addId g k key fl).entry hm = ⟨hm.handles.length, { gh := g, kind := k, key := hm.actKey k key, flags := fl }⟩ := by
      simp only [RegOp.entry, actKey]; by_cases h : key = [] <;> simp [h]
    rw [this]; exact put_push hm _
  | addAt info i =>
    simp only [RegOp.run, RegOp.entry, addHandleAtIndex]
    split
    · rename_i h; subst h; exact put_push hm info
    · split
      · rename_i h
        apply put_fields
        · intro j x hj e; rw [List.getElem?_set_ne (Ne.symm hj)]; exact e
        · simp [h]
      · rename_i h1 h2
        apply put_fields
        · intro j h _ e
          exact getElem?_append_some (getElem?_append_some e)
        · have hl : (hm.handles ++ List.replicate (i - hm.handles.length) ({} : HInfo)).length = i := by
            rw [List.length_append, List.length_replicate]; omega
          rw [List.getElem?_append_right (by omega), hl, Nat.sub_self]
          rfl

theorem WF.put {hm hm' : HM} {R : List Entry} {A : List (IName × IName)} {e : Entry} {ok : Bool} (w : WF hm R A)
    (p : Put hm hm' e ok) (f : fresh R e) : WF hm' (if ok then e :: R else R) A := by
  have keepRec : ∀ x ∈ R, hm'.handles[x.idx]? = some x.info := fun x hx => p.other _ _ (f x hx).1 (w.recs x hx)
  have keepAl : ∀ q ∈ A, q.1 ≠ q.2 → ∃ v, hm'.aliases.lookup q.1 = some v ∧ q.2 ∈ v := by rw [p.aliases]; exact w.als
  cases ok with
  | false =>
    refine ⟨by rw [p.bad rfl]; exact w.ids, keepRec, fun x hx hk s hs => p.maps s _ _ (w.names x hx hk s hs), keepAl,
      fun q hq x hx e1 e2 s hs => p.maps s _ _ (w.anames q hq x hx e1 e2 s hs), w.idx⟩
  | true =>
    have hnone : hm.ids.lookup e.info.gh = none := by
      cases h : hm.ids.lookup e.info.gh with
      | none => rfl
      | some i => obtain ⟨x, hx, h1, _⟩ := (w.ids _ _).mp h; exact absurd h1 (f x hx).2
    have hids : hm'.ids = (e.info.gh, e.idx) :: hm.ids := by rw [p.ids rfl, tryEmplace_new hnone]
    have hnm := p.names rfl
    simp only [if_true]
    refine ⟨fun g i => ?_, ?_, ?_, keepAl, ?_, ?_⟩
    · rw [hids]
      by_cases hg : g = e.info.gh
      · subst hg
        rw [lookup_cons_self]
        constructor
        · rintro h; cases h; exact ⟨e, by simp, rfl, rfl⟩
        · rintro ⟨x, hx, h1, h2⟩
          rcases List.mem_cons.mp hx with rfl | hx
          · rw [h2]
          · exact absurd h1 (f x hx).2
      · rw [lookup_cons_ne hg, w.ids]
        constructor
        · rintro ⟨x, hx, h⟩; exact ⟨x, List.mem_cons_of_mem _ hx, h⟩
        · rintro ⟨x, hx, h1, h2⟩
          rcases List.mem_cons.mp hx with rfl | hx
          · exact absurd h1.symm hg
          · exact ⟨x, hx, h1, h2⟩
    · intro x hx
      rcases List.mem_cons.mp hx with rfl | hx
      · exact p.rec_
      · exact keepRec x hx
    · intro x hx hk s hs
      rcases List.mem_cons.mp hx with rfl | hx
      · exact (hnm hk s hs).1
      · exact p.maps s _ _ (w.names x hx hk s hs)
    · intro q hq x hx e1 e2 s hs
      rcases List.mem_cons.mp hx with rfl | hx
      · by_cases hne : q.1 = q.2
        · rw [← hne, ← e1]; exact (hnm e2 s hs).1
        · obtain ⟨v, h1, h2⟩ := w.als q hq hne
          refine (hnm e2 s hs).2 q.2 ?_
          rw [e1, h1]; exact h2
      · exact p.maps s _ _ (w.anames q hq x hx e1 e2 s hs)
    · intro x hx y hy he
      rcases List.mem_cons.mp hx with hx | hx <;> rcases List.mem_cons.mp hy with hy | hy
      · rw [hx, hy]
      · exact absurd (hx ▸ he).symm (f y hy).1
      · exact absurd (hy ▸ he) (f x hx).1
      · exact w.idx x hx y hy he

theorem getD_of_some {α : Type} {l : List α} {i : Nat} {h d : α} (e : l[i]? = some h) : l.getD i d = h := by
  rw [List.getD_eq_getElem?_getD, e]; rfl

theorem WF.remove {hm : HM} {R : List Entry} {A : List (IName × IName)} (w : WF hm R A) (g : GHandle) :
    WF (hm.removeHandle g) (R.filter fun e => decide (e.info.gh ≠ g)) A := by
  have mem : ∀ x, x ∈ R.filter (fun e => decide (e.info.gh ≠ g)) ↔ x ∈ R ∧ x.info.gh ≠ g := by
    intro x; rw [List.mem_filter]; simp
  cases h : hm.ids.lookup g with
  | none =>
    rw [removeHandle_none _ _ h]
    have : R.filter (fun e => decide (e.info.gh ≠ g)) = R := by
      rw [List.filter_eq_self]
      intro x hx
      have : x.info.gh ≠ g := by
        intro e
        have := (w.ids g x.idx).mpr ⟨x, hx, e, rfl⟩
        rw [h] at this; cases this
      simpa using this
    rw [this]; exact w
  | some i =>
    obtain ⟨r1, r2, r3, r4⟩ := removeHandle_facts hm g i h
    obtain ⟨e0, m0, g0, i0⟩ := (w.ids g i).mp h
    have hinfo : hm.handles.getD i {} = e0.info := by rw [← i0]; exact getD_of_some (w.recs e0 m0)
    rw [hinfo] at r4
    have hne : ∀ x, x ∈ R → x.info.gh ≠ g → x.idx ≠ i := by
      intro x hx hg e
      exact hg (by rw [w.idx x hx e0 m0 (by rw [e, i0]), g0])
    -- an entry of the maps that leads to a live interface survives
    have keep : ∀ s x y, y ≠ i → (hm.map s).lookup x = some y → ((hm.removeHandle g).map s).lookup x = some y := by
      intro s x y hy hx
      rw [r4, if_neg]
      · exact hx
      · rintro ⟨e1, e2, e3⟩
        have := w.names e0 m0 (e1 ▸ e2) s e3
        rw [← e1, hx] at this
        cases this
        exact hy i0
    refine ⟨fun g' j => ?_, ?_, ?_, ?_, ?_, ?_⟩
    · rw [r2]
      by_cases hg : g' = g
      · subst hg
        rw [lookup_eraseKey_self]
        constructor
        · intro h; cases h
        · rintro ⟨x, hx, h1, _⟩; exact absurd h1 ((mem x).mp hx).2
      · rw [lookup_eraseKey_ne _ hg, w.ids]
        constructor
        · rintro ⟨x, hx, h1, h2⟩; exact ⟨x, (mem x).mpr ⟨hx, by rw [h1]; exact hg⟩, h1, h2⟩
        · rintro ⟨x, hx, h1, h2⟩; exact ⟨x, ((mem x).mp hx).1, h1, h2⟩
    · intro x hx
      obtain ⟨hx, hg⟩ := (mem x).mp hx
      rw [r1, List.getElem?_set_ne (Ne.symm (hne x hx hg))]
      exact w.recs x hx
    · intro x hx hk s hs
      obtain ⟨hx, hg⟩ := (mem x).mp hx
      exact keep s _ _ (hne x hx hg) (w.names x hx hk s hs)
    · rw [r3]; exact w.als
    · intro q hq x hx e1 e2 s hs
      obtain ⟨hx, hg⟩ := (mem x).mp hx
      exact keep s _ _ (hne x hx hg) (w.anames q hq x hx e1 e2 s hs)
    · intro x hx y hy he
      exact w.idx x ((mem x).mp hx).1 y ((mem y).mp hy).1 he

theorem WF.alias {hm : HM} {R : List Entry} {A : List (IName × IName)} (w : WF hm R A) (n : Nat) (name al : IName) :
    WF (hm.addAlias (n + 1) name al).1 R
      (if (hm.addAlias (n + 1) name al).2 then (name, al) :: (al, name) :: A else A) := by
  obtain ⟨x, g⟩ := addAlias_facts (n + 1) hm name al
  have base : WF (hm.addAlias (n + 1) name al).1 R A := by
    refine ⟨by rw [x.ids]; exact w.ids, by rw [x.handles]; exact w.recs,
      fun e he hk s hs => x.maps s _ _ (w.names e he hk s hs), fun p hp hne => ?_,
      fun p hp e he h1 h2 s hs => x.maps s _ _ (w.anames p hp e he h1 h2 s hs), w.idx⟩
    obtain ⟨v, h1, h2⟩ := w.als p hp hne
    obtain ⟨v', h3, h4⟩ := g _ _ h1
    exact ⟨v', h3, h4 _ h2⟩
  split
  · rename_i h
    obtain ⟨k1, k2, k3, k4⟩ := addAlias_ok h
    refine ⟨base.ids, base.recs, base.names, fun p hp hne => ?_, fun p hp e he h1 h2 s hs => ?_, base.idx⟩
    · rcases List.mem_cons.mp hp with rfl | hp
      · exact k3 hne
      · rcases List.mem_cons.mp hp with rfl | hp
        · exact k4 (Ne.symm hne)
        · exact base.als p hp hne
    · rcases List.mem_cons.mp hp with rfl | hp
      · exact k1 s _ (by have := w.names e he h2 s hs; rw [h1] at this; exact this)
      · rcases List.mem_cons.mp hp with rfl | hp
        · exact k2 s _ (by have := w.names e he h2 s hs; rw [h1] at this; exact this)
        · exact base.anames p hp e he h1 h2 s hs
  · exact base

/-- the pass over the records of `removeFederateHandles` -/
def fedPass (fed : Int) (hm : HM) (l : List Nat) : HM :=
  l.foldl (fun hm i => if (hm.handles.getD i {}).gh.fed = fed then hm.removeHandle (hm.handles.getD i {}).gh else hm) hm

theorem fedPass_wf (fed : Int) (l : List Nat) {hm : HM} {R : List Entry} {A : List (IName × IName)} (w : WF hm R A)
    (hR : ∀ e ∈ R, e.info.gh.fed = fed → e.idx ∈ l) :
    WF (fedPass fed hm l) (R.filter fun e => decide (e.info.gh.fed ≠ fed)) A := by
  induction l generalizing hm R with
  | nil =>
    have : R.filter (fun e => decide (e.info.gh.fed ≠ fed)) = R := by
      rw [List.filter_eq_self]
      intro x hx
      have : x.info.gh.fed ≠ fed := fun e => by cases hR x hx e
      simpa using this
    rw [this]; exact w
  | cons i l ih =>
    show WF (fedPass fed (if (hm.handles.getD i {}).gh.fed = fed then hm.removeHandle (hm.handles.getD i {}).gh else hm) l) _ _
    split
    · rename_i hf
      have w' := w.remove (hm.handles.getD i {}).gh
      have := ih w' (by
        intro e he hfe
        rw [List.mem_filter] at he
        rcases List.mem_cons.mp (hR e he.1 hfe) with h | h
        · exfalso
          have hne : e.info.gh ≠ (hm.handles.getD i {}).gh := by simpa using he.2
          exact hne (by rw [← h, getD_of_some (w.recs e he.1)])
        · exact h)
      rw [List.filter_filter] at this
      have eq : R.filter (fun e => decide (e.info.gh.fed ≠ fed)) =
          R.filter (fun a => decide (a.info.gh.fed ≠ fed) && decide (a.info.gh ≠ (hm.handles.getD i {}).gh)) := by
        apply List.filter_congr
        intro x _
        by_cases h1 : x.info.gh.fed = fed
        · simp [h1]
        · have : x.info.gh ≠ (hm.handles.getD i {}).gh := fun e => h1 (by rw [e]; exact hf)
          rw [decide_eq_true this, Bool.and_true]
      rw [eq]; exact this
    · rename_i hf
      apply ih w
      intro e he hfe
      rcases List.mem_cons.mp (hR e he hfe) with h | h
      · exact absurd hfe (by rw [← h, getD_of_some (w.recs e he)] at hf; exact hf)
      · exact h

theorem removeFed_wf (fed : Int) {hm : HM} {R : List Entry} {A : List (IName × IName)} (w : WF hm R A) :
    WF (hm.removeFederateHandles fed) (R.filter fun e => decide (e.info.gh.fed ≠ fed)) A := by
  refine fedPass_wf fed (List.range hm.handles.length) w (fun e he _ => ?_)
  rw [List.mem_range]
  exact (List.getElem?_eq_some_iff.mp (w.recs e he)).1

theorem Hist.wf {hm R A b} (h : Hist hm R A b) : WF hm R A := by
  induction h with
  | start => exact .start
  | register x _ f ih => exact ih.put (run_put _ x) f
  | remove g _ ih => exact ih.remove g
  | removeFed fed _ ih => exact removeFed_wf fed ih
  | alias n a b _ ih => exact ih.alias n a b

/-! ### The theorems -/

theorem slotFor_mem {k q : IfKind} (h : q ∈ serves k) : slotFor q ∈ slotsOf k := by
  cases k <;> simp [serves] at h <;> (try rcases h with h | h | h | h) <;> (try rcases h with h | h | h) <;> subst_vars <;> decide

theorem byName_of {hm : HM} {e : Entry} {name : IName} {q : IfKind} (hl : (hm.map (slotFor q)).lookup name = some e.idx)
    (hr : hm.handles[e.idx]? = some e.info) (hq : q ∈ serves e.info.kind) : hm.byName name q = some e.info := by
  unfold byName
  rw [hl]; simp only
  rw [hr]; simp only
  have h1 : ¬ (q = .translator ∧ e.info.kind ≠ .translator) := by
    rintro ⟨rfl, h⟩; revert hq h; cases e.info.kind <;> simp [serves]
  have h2 : ¬ (q = .sink ∧ e.info.kind ≠ .sink) := by
    rintro ⟨rfl, h⟩; revert hq h; cases e.info.kind <;> simp [serves]
  rw [if_neg h1, if_neg h2]

/-- In a core, where every identifier was issued by the table, the next registration is always fresh. -/
theorem fresh_add {hm R A b} (h : Hist hm R A b) (hn : ∀ x ∈ R, x.info.gh.handle = (x.idx : Int)) (fed : Int) (k : IfKind)
    (key : IName) (fl : BitVec 16) : fresh R ((RegOp.add fed k key fl).entry hm) := by
  intro x hx
  have hl := (List.getElem?_eq_some_iff.mp (h.wf.recs x hx)).1
  refine ⟨by simp only [RegOp.entry]; omega, fun e => ?_⟩
  have h1 := congrArg GHandle.handle e
  rw [hn x hx] at h1
  simp only [RegOp.entry] at h1
  omega

/-- **C26 (lookup).** After any history a live interface is found under the name it was registered with, by every
kind of lookup that applies to it, and the record found is its own. -/
theorem C26_lookup {hm R A b} (h : Hist hm R A b) (e : Entry) (he : e ∈ R) (hk : e.info.key ≠ []) (q : IfKind)
    (hq : q ∈ serves e.info.kind) : hm.byName e.info.key q = some e.info :=
  byName_of (h.wf.names e he hk _ (slotFor_mem hq)) (h.wf.recs e he) hq

/-- **C26 (alias).** It is also found under every alias declared for its name, in either direction, whether the alias
was declared before or after the registration. -/
theorem C26_alias {hm R A b} (h : Hist hm R A b) (e : Entry) (he : e ∈ R) (hk : e.info.key ≠ []) (al : IName)
    (ha : (e.info.key, al) ∈ A) (q : IfKind) (hq : q ∈ serves e.info.kind) : hm.byName al q = some e.info :=
  byName_of (h.wf.anames _ ha e he rfl hk _ (slotFor_mem hq)) (h.wf.recs e he) hq

/-- **C26 (unique).** Two live interfaces that some kind of lookup could both find never share a name; in particular
no two interfaces of one kind do. -/
theorem C26_unique {hm R A b} (h : Hist hm R A b) (e e' : Entry) (he : e ∈ R) (he' : e' ∈ R) (hk : e.info.key ≠ [])
    (hn : e.info.key = e'.info.key) (q : IfKind) (hq : q ∈ serves e.info.kind) (hq' : q ∈ serves e'.info.kind) : e = e' := by
  have h1 := h.wf.names e he hk _ (slotFor_mem hq)
  have h2 := h.wf.names e' he' (hn ▸ hk) _ (slotFor_mem hq')
  rw [hn, h2] at h1
  exact h.wf.idx e he e' he' (Option.some.inj h1).symm

/-- **C26 (refusal).** Registering a name that a live interface already answers to, by name or by declared alias, is
refused, and every live interface is found exactly as before. -/
theorem C26_refused {hm R A b} (h : Hist hm R A b) (x : RegOp) (hf : fresh R (x.entry hm)) (e : Entry) (he : e ∈ R)
    (hk : e.info.key ≠ []) (hx : (x.entry hm).info.key ≠ [])
    (hn : (x.entry hm).info.key = e.info.key ∨ (e.info.key, (x.entry hm).info.key) ∈ A) (q : IfKind)
    (hq : q ∈ serves e.info.kind) (hq' : q ∈ serves (x.entry hm).info.kind) :
    (x.run hm).2 = false ∧ Hist (x.run hm).1 R A (b + 1) := by
  have hl : (hm.map (slotFor q)).lookup (x.entry hm).info.key = some e.idx := by
    rcases hn with hn | hn
    · rw [hn]; exact h.wf.names e he hk _ (slotFor_mem hq)
    · exact h.wf.anames _ hn e he rfl hk _ (slotFor_mem hq)
  have hw := Hist.register x h hf
  have hr : (x.run hm).2 = false := by
    cases hb : (x.run hm).2 with
    | false => rfl
    | true =>
      exfalso
      rw [hb] at hw
      simp only [if_true] at hw
      have h1 := hw.wf.names _ (List.mem_cons_self ..) hx _ (slotFor_mem hq')
      have h2 := (run_put hm x).maps _ _ _ hl
      rw [h2] at h1
      exact (hf e he).1 (Option.some.inj h1)
  rw [hr] at hw
  exact ⟨hr, hw⟩

/-- **C26 (identifiers).** An identifier finds a record exactly when a live interface has it, and then finds that
interface's record. -/
theorem C26_find {hm R A b} (h : Hist hm R A b) (g : GHandle) (r : HInfo) :
    hm.findHandle g = some r ↔ ∃ e ∈ R, e.info.gh = g ∧ e.info = r := by
  have w := h.wf
  unfold findHandle
  constructor
  · intro hr
    cases hl : hm.ids.lookup g with
    | none => rw [hl] at hr; cases hr
    | some i =>
      rw [hl] at hr
      obtain ⟨e, he, h1, h2⟩ := (w.ids g i).mp hl
      refine ⟨e, he, h1, ?_⟩
      simp only [← h2, w.recs e he] at hr
      exact Option.some.inj hr
  · rintro ⟨e, he, h1, rfl⟩
    rw [(w.ids g e.idx).mpr ⟨e, he, h1, rfl⟩]
    exact w.recs e he

/-! ### Nothing else is found -/

/-- two names are linked by the declared aliases -/
inductive Conn (A : List (IName × IName)) (x : IName) : IName → Prop
  | refl : Conn A x x
  | fwd {y z} : Conn A x y → (y, z) ∈ A → Conn A x z
  | bwd {y z} : Conn A x y → (z, y) ∈ A → Conn A x z

theorem Conn.trans {A x y z} (h : Conn A x y) (k : Conn A y z) : Conn A x z := by
  induction k with
  | refl => exact h
  | fwd _ e ih => exact .fwd ih e
  | bwd _ e ih => exact .bwd ih e

theorem Conn.symm {A x y} (h : Conn A x y) : Conn A y x := by
  induction h with
  | refl => exact .refl
  | fwd _ e ih => exact (Conn.bwd .refl e).trans ih
  | bwd _ e ih => exact (Conn.fwd .refl e).trans ih

theorem Conn.mono {A B x y} (h : Conn A x y) (s : ∀ p ∈ A, p ∈ B) : Conn B x y := by
  induction h with
  | refl => exact .refl
  | fwd _ e ih => exact .fwd ih (s _ e)
  | bwd _ e ih => exact .bwd ih (s _ e)

theorem Conn.eq_of_nil {x y} (h : Conn [] x y) : x = y := by
  cases h with
  | refl => rfl
  | fwd _ e => cases e
  | bwd _ e => cases e

structure Exact (hm : HM) (R : List Entry) (A : List (IName × IName)) : Prop where
  nm : ∀ s x i, (hm.map s).lookup x = some i → ∃ e ∈ R, e.idx = i ∧ e.info.key ≠ [] ∧ s ∈ slotsOf e.info.kind ∧ Conn A e.info.key x
  al : ∀ x v, hm.aliases.lookup x = some v → ∀ y ∈ v, Conn A x y

theorem tryEmplace_exact {m : List (IName × Nat)} {k x : IName} {v i : Nat} (h : (tryEmplace m k v).1.lookup x = some i) :
    m.lookup x = some i ∨ (x = k ∧ i = v) := by
  unfold tryEmplace at h
  split at h
  · exact Or.inl h
  · by_cases e : x = k
    · subst e; rw [lookup_cons_self] at h; exact Or.inr ⟨rfl, (Option.some.inj h).symm⟩
    · rw [lookup_cons_ne e] at h; exact Or.inl h

theorem addAll_exact {m : List (IName × Nat)} {i : Nat} {as : List IName} {x : IName} {y : Nat}
    (h : (addAll m i as).1.lookup x = some y) : m.lookup x = some y ∨ (y = i ∧ x ∈ as) := by
  induction as generalizing m with
  | nil => exact Or.inl h
  | cons a as ih =>
    simp only [addAll] at h
    split at h
    · rcases ih h with h | ⟨h, k⟩
      · rcases tryEmplace_exact h with h | ⟨h, k⟩
        · exact Or.inl h
        · exact Or.inr ⟨k, by simp [h]⟩
      · exact Or.inr ⟨h, by simp [k]⟩
    · rcases tryEmplace_exact h with h | ⟨h, k⟩
      · exact Or.inl h
      · exact Or.inr ⟨k, by simp [h]⟩

theorem addFields_exact {m : List (IName × Nat)} {key : IName} {i : Nat} {al : List (IName × List IName)} {x : IName} {y : Nat}
    (h : (addFields m key i al).1.lookup x = some y) :
    m.lookup x = some y ∨ (y = i ∧ (x = key ∨ x ∈ (al.lookup key).getD [])) := by
  simp only [addFields] at h
  split at h
  · rcases addAll_exact h with h | ⟨h, k⟩
    · rcases tryEmplace_exact h with h | ⟨h, k⟩
      · exact Or.inl h
      · exact Or.inr ⟨k, Or.inl h⟩
    · exact Or.inr ⟨h, Or.inr k⟩
  · rcases tryEmplace_exact h with h | ⟨h, k⟩
    · exact Or.inl h
    · exact Or.inr ⟨k, Or.inl h⟩

theorem addSlots_exact {hm : HM} {key : IName} {i : Nat} {ss : List Slot} {s : Slot} {x : IName} {y : Nat}
    (h : ((addSlots hm key i ss).1.map s).lookup x = some y) :
    (hm.map s).lookup x = some y ∨ (s ∈ ss ∧ y = i ∧ (x = key ∨ x ∈ (hm.aliases.lookup key).getD [])) := by
  induction ss generalizing hm with
  | nil => exact Or.inl h
  | cons t ss ih =>
    simp only [addSlots] at h
    have one : ((hm.setMap t (addFields (hm.map t) key i hm.aliases).1).map s).lookup x = some y →
        (hm.map s).lookup x = some y ∨ (s ∈ t :: ss ∧ y = i ∧ (x = key ∨ x ∈ (hm.aliases.lookup key).getD [])) := by
      intro h
      rw [map_setMap] at h
      split at h
      · rename_i e; subst e
        rcases addFields_exact h with h | h
        · exact Or.inl h
        · exact Or.inr ⟨by simp, h⟩
      · exact Or.inl h
    split at h
    · rcases ih h with h | ⟨h1, h2⟩
      · exact one h
      · rw [setMap_aliases] at h2
        exact Or.inr ⟨List.mem_cons_of_mem _ h1, h2⟩
    · exact one h

theorem addSearchFields_exact {hm : HM} {info : HInfo} {i : Nat} {s : Slot} {x : IName} {y : Nat}
    (h : ((addSearchFields hm info i).1.map s).lookup x = some y) :
    (hm.map s).lookup x = some y ∨ (info.key ≠ [] ∧ s ∈ slotsOf info.kind ∧ y = i ∧
      (x = info.key ∨ x ∈ (hm.aliases.lookup info.key).getD [])) := by
  by_cases hk : info.key = []
  · have : addSearchFields hm info i = ({ hm with ids := (tryEmplace hm.ids info.gh i).1 }, true) := by
      unfold addSearchFields; simp [hk]
    rw [this] at h
    left; cases s <;> exact h
  · have h' : ((addSlots hm info.key i (slotsOf info.kind)).1.map s).lookup x = some y := by
      unfold addSearchFields at h
      simp only [ne_eq, hk, not_false_eq_true, if_true] at h
      split at h
      · cases s <;> exact h
      · exact h
    rcases addSlots_exact h' with h | h
    · exact Or.inl h
    · exact Or.inr ⟨hk, h⟩

theorem run_exact {hm : HM} {x : RegOp} {s : Slot} {n : IName} {y : Nat} (h : ((x.run hm).1.map s).lookup n = some y) :
    (hm.map s).lookup n = some y ∨ ((x.entry hm).info.key ≠ [] ∧ s ∈ slotsOf (x.entry hm).info.kind ∧ y = (x.entry hm).idx ∧
      (n = (x.entry hm).info.key ∨ n ∈ (hm.aliases.lookup (x.entry hm).info.key).getD [])) := by
  have mp : ∀ l : List HInfo, ({ hm with handles := l } : HM).map s = hm.map s := fun l => by cases s <;> rfl
  have key : ∀ (l : List HInfo) info i, ((addSearchFields { hm with handles := l } info i).1.map s).lookup n = some y →
      (hm.map s).lookup n = some y ∨ (info.key ≠ [] ∧ s ∈ slotsOf info.kind ∧ y = i ∧
      (n = info.key ∨ n ∈ (hm.aliases.lookup info.key).getD [])) := by
    intro l info i h
    have := addSearchFields_exact h
    rw [mp] at this
    exact this
  cases x with
  | add fed k k' fl =>
    have : (RegOp.add fed k k' fl).entry hm = ⟨hm.handles.length, { gh := ⟨fed, hm.handles.length⟩, kind := k, key := hm.actKey k k', flags := fl }⟩ := by
      simp only [RegOp.entry, actKey]; by_cases h : k' = [] <;> simp [h]
    rw [this]; exact key _ _ _ h
  | addId g k k' fl =>
    have : (RegOp.addId g k k' fl).entry hm = ⟨hm.handles.length, { gh := g, kind := k, key := hm.actKey k k', flags := fl }⟩ := by
      simp only [RegOp.entry, actKey]; by_cases h : k' = [] <;> simp [h]
    rw [this]; exact key _ _ _ h
  | addAt info i =>
    simp only [RegOp.run, addHandleAtIndex] at h
    split at h
    · rename_i e; subst e; exact key _ _ _ h
    · split at h
      · exact key _ _ _ h
      · exact key _ _ _ h

theorem mapAlias_exact {m : List (IName × Nat)} {a b x : IName} {i : Nat} (h : (mapAlias m a b).1.lookup x = some i) :
    m.lookup x = some i ∨ (x = b ∧ m.lookup a = some i) ∨ (x = a ∧ m.lookup b = some i) := by
  unfold mapAlias at h
  split at h
  · rename_i j hj
    split at h
    · exact Or.inl h
    · by_cases e : x = b
      · subst e; rw [lookup_cons_self] at h; exact Or.inr (Or.inl ⟨rfl, by rw [hj]; exact h⟩)
      · rw [lookup_cons_ne e] at h; exact Or.inl h
  · split at h
    · rename_i j hj
      rcases tryEmplace_exact h with h | ⟨h, k⟩
      · exact Or.inl h
      · exact Or.inr (Or.inr ⟨h, by rw [hj, k]⟩)
    · exact Or.inl h

theorem slotAlias_exact {hm : HM} {R A} {a b : IName} (ss : List Slot) (x : Exact hm R A) (c : Conn A a b) :
    Exact (slotAlias hm a b ss).1 R A := by
  induction ss generalizing hm with
  | nil => exact x
  | cons t ss ih =>
    have one : Exact (hm.setMap t (mapAlias (hm.map t) a b).1) R A := by
      refine ⟨fun s n i h => ?_, by rw [setMap_aliases]; exact x.al⟩
      rw [map_setMap] at h
      split at h
      · rename_i e; subst e
        rcases mapAlias_exact h with h | ⟨rfl, h'⟩ | ⟨rfl, h'⟩
        · exact x.nm s n i h
        · obtain ⟨e, he, h1, h2, h3, h4⟩ := x.nm s _ i h'
          exact ⟨e, he, h1, h2, h3, h4.trans c⟩
        · obtain ⟨e, he, h1, h2, h3, h4⟩ := x.nm s _ i h'
          exact ⟨e, he, h1, h2, h3, h4.trans c.symm⟩
      · exact x.nm s n i h
    simp only [slotAlias]
    split
    · exact ih one
    · exact one

theorem cascade_exact {hm : HM} {R A} {name skip : IName} (as : List IName) (x : Exact hm R A)
    (c : ∀ a ∈ as, Conn A a name) : Exact (cascade hm name skip as).1 R A := by
  induction as generalizing hm with
  | nil => exact x
  | cons a as ih =>
    simp only [cascade]
    have h := slotAlias_exact aliasOrder x (c a (by simp))
    split
    · split
      · exact ih h (fun b hb => c b (by simp [hb]))
      · exact h
    · exact ih x (fun b hb => c b (by simp [hb]))

theorem setAliases_exact {hm : HM} {R A} (x : Exact hm R A) (a : IName) (v : List IName) (u : Bool) (c : ∀ y ∈ v, Conn A a y) :
    Exact { hm.setAliases a v with ub := u } R A := by
  refine ⟨fun s n i h => x.nm s n i (by cases s <;> exact h), fun n w h => ?_⟩
  have h' : (hm.setAliases a v).aliases.lookup n = some w := h
  rw [lookup_setAliases] at h'
  split at h'
  · rename_i e; subst e; cases h'; exact c
  · exact x.al n w h'

theorem addAliasName_exact (n : Nat) (act : List IName) {hm : HM} {R A} {a b : IName} (x : Exact hm R A) (c : Conn A a b) :
    Exact (addAliasName n act hm a b).1 R A := by
  induction n generalizing act hm a b with
  | zero => exact x
  | succ n ih =>
    unfold addAliasName
    split
    · exact x
    · split
      · exact ih act (setAliases_exact x a [b] hm.ub (by simpa using c)) c.symm
      · rename_i v hv
        split
        · exact x
        · simp only
          have cv : ∀ y ∈ insertSorted b v, Conn A a y := by
            intro y hy
            rcases (mem_insertSorted _ _ _).mp hy with rfl | hy
            · exact c
            · exact x.al a v hv y hy
          have h0 := setAliases_exact x a (insertSorted b v) (hm.ub || act.contains a) cv
          have hf : ∀ (l : List IName) (h : HM), Exact h R A → (∀ y ∈ l, Conn A a y) →
              Exact (l.foldl (fun h o => (addAliasName n (a :: act) h o b).1) h) R A := by
            intro l
            induction l with
            | nil => intro h k _; exact k
            | cons o l ihl =>
              intro h k hc
              simp only [List.foldl_cons]
              exact ihl _ (ih (a :: act) k ((hc o (by simp)).symm.trans c)) (fun y hy => hc y (by simp [hy]))
          exact ih act (hf _ _ h0 cv) c.symm

theorem aliasHalf_exact (n : Nat) {hm : HM} {R A} {a b : IName} (skip : IName) (x : Exact hm R A) (c : Conn A a b) :
    Exact (aliasHalf n hm a b skip).1 R A := by
  unfold aliasHalf
  simp only
  have h := addAliasName_exact n [] x c
  generalize addAliasName n [] hm a b = r at h
  have h2 : Exact (if r.2 = true then cascade r.1 a skip ((r.1.aliases.lookup a).getD []) else (r.1, true)).1 R A := by
    split
    · apply cascade_exact _ h
      intro y hy
      cases hv : r.1.aliases.lookup a with
      | none => rw [hv] at hy; cases hy
      | some v => rw [hv] at hy; exact (h.al a v hv y hy).symm
    · exact h
  generalize (if r.2 = true then cascade r.1 a skip ((r.1.aliases.lookup a).getD []) else (r.1, true)) = q at h2
  split
  · exact slotAlias_exact _ h2 c
  · exact h2

theorem Exact.mono {hm R A B} (x : Exact hm R A) (s : ∀ p ∈ A, p ∈ B) : Exact hm R B :=
  ⟨fun t n i h => by
      obtain ⟨e, he, h1, h2, h3, h4⟩ := x.nm t n i h
      exact ⟨e, he, h1, h2, h3, h4.mono s⟩,
    fun n v h y hy => (x.al n v h y hy).mono s⟩

theorem removeHandle_exact {hm : HM} {R : List Entry} (w : WF hm R []) (x : Exact hm R []) (g : GHandle) :
    Exact (hm.removeHandle g) (R.filter fun e => decide (e.info.gh ≠ g)) [] := by
  cases h : hm.ids.lookup g with
  | none =>
    have : R.filter (fun e => decide (e.info.gh ≠ g)) = R := by
      rw [List.filter_eq_self]
      intro x hx
      have : x.info.gh ≠ g := by
        intro e
        have := (w.ids g x.idx).mpr ⟨x, hx, e, rfl⟩
        rw [h] at this; cases this
      simpa using this
    rw [removeHandle_none _ _ h, this]
    exact x
  | some i =>
    obtain ⟨r1, r2, r3, r4⟩ := removeHandle_facts hm g i h
    obtain ⟨e0, m0, g0, i0⟩ := (w.ids g i).mp h
    have hinfo : hm.handles.getD i {} = e0.info := by rw [← i0]; exact getD_of_some (w.recs e0 m0)
    rw [hinfo] at r4
    refine ⟨fun s n j hn => ?_, by rw [r3]; exact x.al⟩
    rw [r4] at hn
    split at hn
    · cases hn
    · rename_i hc
      obtain ⟨e, he, h1, h2, h3, h4⟩ := x.nm s n j hn
      refine ⟨e, List.mem_filter.mpr ⟨he, ?_⟩, h1, h2, h3, h4⟩
      have : e.info.gh ≠ g := by
        intro hg
        have : e.idx = i := by
          have := (w.ids g e.idx).mpr ⟨e, he, hg, rfl⟩
          rw [h] at this; exact (Option.some.inj this).symm
        have : e = e0 := w.idx e he e0 m0 (by rw [this, i0])
        subst this
        exact hc ⟨h4.eq_of_nil.symm, h4.eq_of_nil ▸ h2, h3⟩
      simpa using this

theorem fedPass_exact (fed : Int) (l : List Nat) {hm : HM} {R : List Entry} (w : WF hm R []) (x : Exact hm R [])
    (hR : ∀ e ∈ R, e.info.gh.fed = fed → e.idx ∈ l) :
    Exact (fedPass fed hm l) (R.filter fun e => decide (e.info.gh.fed ≠ fed)) [] := by
  induction l generalizing hm R with
  | nil =>
    have : R.filter (fun e => decide (e.info.gh.fed ≠ fed)) = R := by
      rw [List.filter_eq_self]
      intro x hx
      have : x.info.gh.fed ≠ fed := fun e => by cases hR x hx e
      simpa using this
    rw [this]; exact x
  | cons i l ih =>
    show Exact (fedPass fed (if (hm.handles.getD i {}).gh.fed = fed then hm.removeHandle (hm.handles.getD i {}).gh else hm) l) _ _
    split
    · rename_i hf
      have := ih (w.remove (hm.handles.getD i {}).gh) (removeHandle_exact w x _) (by
        intro e he hfe
        rw [List.mem_filter] at he
        rcases List.mem_cons.mp (hR e he.1 hfe) with h | h
        · exfalso
          have hne : e.info.gh ≠ (hm.handles.getD i {}).gh := by simpa using he.2
          exact hne (by rw [← h, getD_of_some (w.recs e he.1)])
        · exact h)
      rw [List.filter_filter] at this
      have eq : R.filter (fun e => decide (e.info.gh.fed ≠ fed)) =
          R.filter (fun a => decide (a.info.gh.fed ≠ fed) && decide (a.info.gh ≠ (hm.handles.getD i {}).gh)) := by
        apply List.filter_congr
        intro x _
        by_cases h1 : x.info.gh.fed = fed
        · simp [h1]
        · have : x.info.gh ≠ (hm.handles.getD i {}).gh := fun e => h1 (by rw [e]; exact hf)
          rw [decide_eq_true this, Bool.and_true]
      rw [eq]; exact this
    · rename_i hf
      apply ih w x
      intro e he hfe
      rcases List.mem_cons.mp (hR e he hfe) with h | h
      · exact absurd hfe (by rw [← h, getD_of_some (w.recs e he)] at hf; exact hf)
      · exact h

theorem Hist.exact {hm R A b} (h : Hist hm R A b) (hb : b = 0) : Exact hm R A := by
  induction h with
  | start => exact ⟨fun s x i h => (by cases s <;> cases h), fun _ _ h => (by cases h)⟩
  | @register hm R A b x h0 f ih =>
    have hok : (x.run hm).2 = true := by
      cases h : (x.run hm).2 with
      | true => rfl
      | false => rw [h] at hb; simp at hb
    rw [hok] at hb ⊢
    simp only [if_true] at hb ⊢
    have E := ih hb
    refine ⟨fun s n i h => ?_, ?_⟩
    · rcases run_exact h with h | ⟨h1, h2, h3, h4⟩
      · obtain ⟨e, he, k⟩ := E.nm s n i h
        exact ⟨e, List.mem_cons_of_mem _ he, k⟩
      · refine ⟨_, List.mem_cons_self .., h3.symm, h1, h2, ?_⟩
        rcases h4 with rfl | h4
        · exact .refl
        · cases hv : hm.aliases.lookup (x.entry hm).info.key with
          | none => rw [hv] at h4; cases h4
          | some v => rw [hv] at h4; exact E.al _ v hv n h4
    · rw [(run_put hm x).aliases]; exact E.al
  | @remove hm R A b g h0 ih =>
    by_cases hA : A = []
    · subst hA
      rw [if_pos rfl] at hb
      exact removeHandle_exact h0.wf (ih hb) g
    · rw [if_neg hA] at hb; simp at hb
  | @removeFed hm R A b fed h0 ih =>
    by_cases hA : A = []
    · subst hA
      rw [if_pos rfl] at hb
      refine fedPass_exact fed (List.range hm.handles.length) h0.wf (ih hb) (fun e he _ => ?_)
      rw [List.mem_range]
      exact (List.getElem?_eq_some_iff.mp (h0.wf.recs e he)).1
    · rw [if_neg hA] at hb; simp at hb
  | @alias hm R A b n name al h0 ih =>
    have hok : (hm.addAlias (n + 1) name al).2 = true := by
      cases h : (hm.addAlias (n + 1) name al).2 with
      | true => rfl
      | false => rw [h] at hb; simp at hb
    rw [hok] at hb ⊢
    simp only [if_true] at hb ⊢
    have E := (ih hb).mono (B := (name, al) :: (al, name) :: A) (fun p hp => by simp [hp])
    have c : Conn ((name, al) :: (al, name) :: A) name al := .fwd .refl (by simp)
    unfold addAlias
    simp only
    split
    · exact aliasHalf_exact _ _ (aliasHalf_exact _ _ E c) c.symm
    · exact aliasHalf_exact _ _ E c

/-- **C26 (nothing else).** As long as no call has thrown and nothing was removed after an alias was declared, whatever
a lookup returns is the record of a live interface of a kind the lookup applies to, whose name is the given one or is
linked to it by declared aliases. -/
theorem C26_exact {hm R A} (h : Hist hm R A 0) (name : IName) (q : IfKind) (r : HInfo) (hr : hm.byName name q = some r) :
    ∃ e ∈ R, e.info = r ∧ Conn A e.info.key name ∧ slotFor q ∈ slotsOf e.info.kind := by
  unfold byName at hr
  split at hr
  · cases hr
  · rename_i i hi
    obtain ⟨e, he, h1, h2, h3, h4⟩ := (h.exact rfl).nm _ _ _ hi
    refine ⟨e, he, ?_, h4, h3⟩
    rw [← h1, h.wf.recs e he] at hr
    simp only at hr
    split at hr
    · cases hr
    · split at hr
      · cases hr
      · exact Option.some.inj hr

/-- Without aliases: a name is found exactly when a live interface has it. -/
theorem C26_exact_plain {hm R} (h : Hist hm R [] 0) (name : IName) (q : IfKind) (r : HInfo) (hr : hm.byName name q = some r) :
    ∃ e ∈ R, e.info = r ∧ e.info.key = name := by
  obtain ⟨e, he, h1, h2, _⟩ := C26_exact h name q r hr
  exact ⟨e, he, h1, h2.eq_of_nil⟩

/-- The key of the identifier map determines the identifier (both parts are 32-bit integers). -/
theorem idKey_injective (g g' : GHandle) (h1 : -2 ^ 31 ≤ g.fed ∧ g.fed < 2 ^ 31) (h2 : -2 ^ 31 ≤ g.handle ∧ g.handle < 2 ^ 31)
    (h1' : -2 ^ 31 ≤ g'.fed ∧ g'.fed < 2 ^ 31) (h2' : -2 ^ 31 ≤ g'.handle ∧ g'.handle < 2 ^ 31)
    (h : g.idKey = g'.idKey) : g = g' := by
  obtain ⟨f, i⟩ := g
  obtain ⟨f', i'⟩ := g'
  simp only [GHandle.idKey] at *
  have : f = f' ∧ i = i' := by omega
  rw [this.1, this.2]

/-! ### A concrete history -/

/-- publication "a", input "b", alias a = "c", translator "d" -/
def demo26 : HM :=
  let hm : HM := (RegOp.run {} (.add 1 .publication [97] 0)).1
  let hm := (RegOp.run hm (.add 1 .input [98] 0)).1
  let hm := (hm.addAlias 9 [97] [99]).1
  (RegOp.run hm (.add 2 .translator [100] 0)).1

theorem demo26_hist : Hist demo26
    [⟨2, ⟨⟨2, 2⟩, .translator, [100], 0⟩⟩, ⟨1, ⟨⟨1, 1⟩, .input, [98], 0⟩⟩, ⟨0, ⟨⟨1, 0⟩, .publication, [97], 0⟩⟩]
    [([97], [99]), ([99], [97])] 0 := by
  have h1 := Hist.register (.add 1 .publication [97] 0) .start (by simp [fresh])
  have h2 := Hist.register (.add 1 .input [98] 0) h1 (by decide +kernel)
  have h3 := Hist.alias 8 [97] [99] h2
  have h4 := Hist.register (.add 2 .translator [100] 0) h3 (by decide +kernel)
  exact h4

example : demo26.byName [99] .publication = some ⟨⟨1, 0⟩, .publication, [97], 0⟩ :=
  C26_alias demo26_hist ⟨0, ⟨⟨1, 0⟩, .publication, [97], 0⟩⟩ (by decide) (by decide) [99] (by decide) .publication (by decide)

example : demo26.byName [100] .input = some ⟨⟨2, 2⟩, .translator, [100], 0⟩ :=
  C26_lookup demo26_hist ⟨2, ⟨⟨2, 2⟩, .translator, [100], 0⟩⟩ (by decide) (by decide) .input (by decide)

example : ((RegOp.add 3 .input [100] 0).run demo26).2 = false :=
  (C26_refused demo26_hist (.add 3 .input [100] 0) (by decide +kernel) ⟨2, ⟨⟨2, 2⟩, .translator, [100], 0⟩⟩ (by decide) (by decide)
    (by decide +kernel) (by decide +kernel) .input (by decide) (by decide)).1

/-! ### Defects -/

/-- **Defect.** A registration that is refused can leave the name behind: registering translator "b" while an input
"b" exists throws, and afterwards looking up publication "b" returns the record of the refused translator, which no
identifier finds. -/
theorem C26_refused_leaves_name : ∃ hm R, Hist hm R [] 1 ∧ (∀ e ∈ R, e.info.kind = .input) ∧
    ∃ r, hm.byName [98] .publication = some r ∧ hm.findHandle r.gh = none := by
  have h1 := Hist.register (.add 1 .input [98] 0) .start (by simp [fresh])
  have h2 := Hist.register (.add 2 .translator [98] 0) h1 (by decide +kernel)
  exact ⟨_, _, h2, by decide +kernel, ⟨⟨2, 1⟩, .translator, [98], 0⟩, by decide +kernel, by decide +kernel⟩

/-- **Defect.** An alias outlives the interface: after publication "a" with alias "c" is removed, looking up "c"
returns a blank record, and registering "a" again throws. -/
theorem C26_alias_outlives : ∃ hm A, Hist hm [] A 1 ∧ hm.byName [99] .publication = some {} ∧
    ((RegOp.add 1 .publication [97] 0).run hm).2 = false := by
  have h1 := Hist.register (.add 1 .publication [97] 0) .start (by simp [fresh])
  have h2 := Hist.alias 8 [97] [99] h1
  have h3 := Hist.remove ⟨1, 0⟩ h2
  exact ⟨_, _, h3, by decide +kernel, by decide +kernel⟩

/-- **Defect.** Joining two alias groups inserts into a vector that is being iterated over: aliases b~d and a~c, then
a~b. -/
theorem C26_join_invalidates : ∃ hm A, Hist hm [] A 0 ∧ hm.ub = false ∧ (hm.addAlias 99 [97] [98]).1.ub = true := by
  have h1 := Hist.alias 8 [98] [100] .start
  have h2 := Hist.alias 8 [97] [99] h1
  exact ⟨_, _, h2, by decide +kernel, by decide +kernel⟩

end HM
end Verif
