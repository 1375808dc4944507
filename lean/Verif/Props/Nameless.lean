import Verif.Props.Handles
import Verif.Props.Connect
import Verif.Props.Flags
/-!
# C26: interfaces without a name; C27: required connections

An interface registered without a name gets a generated one.  Two such interfaces never get the same name,
whatever happens to the table in between.
-/
namespace Verif
namespace HM

theorem digit_inj {a b : Nat} (ha : a < 10) (hb : b < 10) (h : a.digitChar = b.digitChar) : a = b := by
  have h1 := Nat.toNat_digitChar_sub_48_of_lt_ten ha
  have h2 := Nat.toNat_digitChar_sub_48_of_lt_ten hb
  rw [h] at h1
  omega

/-- decimal digits determine the number -/
theorem toDigits_inj (a : Nat) : ∀ b, Nat.toDigits 10 a = Nat.toDigits 10 b → a = b := by
  induction a using Nat.strongRecOn with
  | _ a ih =>
    intro b h
    rw [Nat.toDigits_eq_if (by decide), Nat.toDigits_eq_if (n := b) (by decide)] at h
    have hl : ∀ n, (Nat.toDigits 10 n).length ≠ 0 := fun n => by have := Nat.length_toDigits_pos (b := 10) (n := n); omega
    split at h <;> split at h
    · rename_i h1 h2
      exact digit_inj h1 h2 (by simpa using h)
    · exfalso
      have := congrArg List.length h
      simp at this
    · exfalso
      have := congrArg List.length h
      simp at this
    · rename_i h1 h2
      obtain ⟨h3, h4⟩ := List.append_inj' h rfl
      have h5 := ih (a / 10) (by omega) _ h3
      have h6 := digit_inj (Nat.mod_lt _ (by decide)) (Nat.mod_lt _ (by decide)) (by simpa using h4)
      omega

theorem toNat_map_inj (a b : List Char) (h : a.map Char.toNat = b.map Char.toNat) : a = b := by
  induction a generalizing b with
  | nil => cases b <;> simp_all
  | cons x xs ih =>
    cases b with
    | nil => simp at h
    | cons y ys =>
      simp only [List.map_cons, List.cons.injEq] at h
      rw [ih ys h.2, Char.ext (UInt32.toNat_inj.mp h.1)]

theorem generateName_inj (hm hm' : HM) (k k' : IfKind) (h : hm.generateName k = hm'.generateName k') :
    k = k' ∧ hm.handles.length = hm'.handles.length := by
  have hk : k = k' := by
    unfold generateName at h
    have h0 := congrArg (fun l => l[1]?) h
    cases k <;> cases k' <;> first | rfl | (exfalso; simp at h0; done) | (exfalso; revert h0; simp; done)
  subst hk
  refine ⟨rfl, ?_⟩
  unfold generateName at h
  exact toDigits_inj _ _ (toNat_map_inj _ _ (List.append_cancel_left h))

theorem len_addSlots (key : IName) (i : Nat) (ss : List Slot) (hm : HM) :
    (addSlots hm key i ss).1.handles.length = hm.handles.length := by
  induction ss generalizing hm with
  | nil => rfl
  | cons s ss ih =>
    unfold addSlots
    dsimp only
    split
    · rw [ih, setMap_handles]
    · rw [setMap_handles]

theorem len_addSearchFields (hm : HM) (info : HInfo) (i : Nat) : (addSearchFields hm info i).1.handles.length = hm.handles.length := by
  unfold addSearchFields
  have h := len_addSlots info.key i (slotsOf info.kind) hm
  split <;> (dsimp only; split <;> first | exact h | rfl)

theorem len_push (hm : HM) (info : HInfo) : (hm.push info).1.handles.length = hm.handles.length + 1 := by
  unfold push; rw [len_addSearchFields]; simp

theorem len_eraseSlots (key : IName) (ss : List Slot) (hm : HM) : (eraseSlots hm key ss).handles.length = hm.handles.length := by
  induction ss generalizing hm with
  | nil => rfl
  | cons s ss ih => unfold eraseSlots; rw [ih, setMap_handles]

theorem len_removeHandle (hm : HM) (g : GHandle) : (hm.removeHandle g).handles.length = hm.handles.length := by
  unfold removeHandle
  split
  · rfl
  · dsimp only
    rw [List.length_set]
    split
    · rw [len_eraseSlots]
    · rfl

theorem len_removeFed (hm : HM) (fed : Int) : (hm.removeFederateHandles fed).handles.length = hm.handles.length := by
  unfold removeFederateHandles
  generalize List.range hm.handles.length = l
  induction l generalizing hm with
  | nil => rfl
  | cons i l ih =>
    rw [List.foldl_cons, ih]
    dsimp only
    split
    · exact len_removeHandle _ _
    · rfl

theorem len_slotAlias (name al : IName) (ss : List Slot) (hm : HM) : (slotAlias hm name al ss).1.handles.length = hm.handles.length := by
  induction ss generalizing hm with
  | nil => rfl
  | cons s ss ih =>
    unfold slotAlias
    dsimp only
    split
    · rw [ih, setMap_handles]
    · rw [setMap_handles]

theorem len_addAliasName (n : Nat) : ∀ (act : List IName) (hm : HM) (a b : IName),
    (addAliasName n act hm a b).1.handles.length = hm.handles.length := by
  induction n with
  | zero => intro _ _ _ _; rfl
  | succ n ih =>
    intro act hm a b
    unfold addAliasName
    split
    · rfl
    · split
      · rw [ih]; rfl
      · split
        · rfl
        · dsimp only
          rw [ih]
          have : ∀ (l : List IName) (h : HM), (l.foldl (fun h o => (addAliasName n (a :: act) h o b).1) h).handles.length = h.handles.length := by
            intro l
            induction l with
            | nil => intro _; rfl
            | cons x l ihl => intro h; rw [List.foldl_cons, ihl, ih]
          rw [this]; rfl

theorem len_cascade (name skip : IName) (as : List IName) (hm : HM) : (cascade hm name skip as).1.handles.length = hm.handles.length := by
  induction as generalizing hm with
  | nil => rfl
  | cons a as ih =>
    unfold cascade
    dsimp only
    split
    · split
      · rw [ih, len_slotAlias]
      · rw [len_slotAlias]
    · exact ih hm

theorem len_aliasHalf (n : Nat) (hm : HM) (name al skip : IName) : (aliasHalf n hm name al skip).1.handles.length = hm.handles.length := by
  unfold aliasHalf
  dsimp only
  repeat' split
  all_goals simp only [len_slotAlias, len_cascade, len_addAliasName]

theorem len_addAlias (n : Nat) (hm : HM) (name al : IName) : (addAlias n hm name al).1.handles.length = hm.handles.length := by
  unfold addAlias
  dsimp only
  split
  · rw [len_aliasHalf, len_aliasHalf]
  · rw [len_aliasHalf]

/-- anything that can happen to the table -/
inductive TableOp
  | register (x : RegOp)
  | remove (g : GHandle)
  | removeFed (fed : Int)
  | alias (depth : Nat) (name al : IName)

def TableOp.run (hm : HM) : TableOp → HM
  | .register x => (x.run hm).1
  | .remove g => hm.removeHandle g
  | .removeFed fed => hm.removeFederateHandles fed
  | .alias n name al => (hm.addAlias n name al).1

theorem len_op (hm : HM) (o : TableOp) : hm.handles.length ≤ (o.run hm).handles.length := by
  cases o with
  | register x =>
    cases x with
    | add fed k key fl => simp only [TableOp.run, RegOp.run, addHandle, len_push]; omega
    | addId g k key fl => simp only [TableOp.run, RegOp.run, addHandleId, len_push]; omega
    | addAt info i =>
      simp only [TableOp.run, RegOp.run, addHandleAtIndex]
      split
      · rw [len_push]; omega
      · split <;> rw [len_addSearchFields] <;> simp <;> omega
  | remove g => simp only [TableOp.run, len_removeHandle]; omega
  | removeFed f => simp only [TableOp.run, len_removeFed]; omega
  | alias n a b => simp only [TableOp.run, len_addAlias]; omega

/-- **C26 (nameless interfaces).**  An interface registered without a name gets a name different from that of every
interface registered without a name later, whatever its kind and whatever is registered, removed or aliased in
between. -/
theorem C26_nameless (hm : HM) (fed : Int) (k k' : IfKind) (fl : BitVec 16) (ops : List TableOp) :
    let later := ops.foldl TableOp.run (hm.addHandle fed k [] fl).1
    hm.generateName k ≠ later.generateName k' ∧
    (hm.addHandle fed k [] fl).1.handles.getLast? = some { gh := ⟨fed, hm.handles.length⟩, kind := k, key := hm.generateName k, flags := fl } := by
  intro later
  have h1 : hm.handles.length < (hm.addHandle fed k [] fl).1.handles.length := by
    unfold addHandle; rw [len_push]; omega
  have h2 : ∀ (l : List TableOp) (h : HM), h.handles.length ≤ (l.foldl TableOp.run h).handles.length := by
    intro l
    induction l with
    | nil => intro _; exact Nat.le_refl _
    | cons o l ih => intro h; rw [List.foldl_cons]; exact Nat.le_trans (len_op h o) (ih _)
  constructor
  · intro h
    have h3 := (generateName_inj _ _ _ _ h).2
    have h4 := h2 ops (hm.addHandle fed k [] fl).1
    change hm.handles.length = (ops.foldl TableOp.run (hm.addHandle fed k [] fl).1).handles.length at h3
    omega
  · unfold addHandle push
    have hs : ∀ (ss : List Slot) (h : HM) (key : IName) (i : Nat), (addSlots h key i ss).1.handles = h.handles := by
      intro ss
      induction ss with
      | nil => intro _ _ _; rfl
      | cons s ss ih =>
        intro h key i
        unfold addSlots
        dsimp only
        split
        · rw [ih, setMap_handles]
        · rw [setMap_handles]
    have hf : ∀ (h : HM) (info : HInfo) (i : Nat), (addSearchFields h info i).1.handles = h.handles := by
      intro h info i
      unfold addSearchFields
      have := hs (slotsOf info.kind) h info.key i
      split <;> (dsimp only; split <;> first | exact this | rfl)
    rw [hf]
    simp [actKey]

-- the first two nameless interfaces of a table
example : (({} : HM).addHandle 1 .input [] 0).1.handles.map (·.key) = ["_input_0".toList.map Char.toNat] ∧
    ((({} : HM).addHandle 1 .input [] 0).1.addHandle 1 .input [] 0).1.handles.map (·.key) =
      ["_input_0".toList.map Char.toNat, "_input_1".toList.map Char.toNat] := by decide +kernel

end HM

namespace Broker

/-- Everything somebody waits for: what kind of interface, its name, who asked and the marks of the request. -/
def waiting (b : Broker) : List (Want × IName × GHandle × BitVec 16) :=
  b.uPubs.map (fun p => (.pub, p)) ++ b.uInps.map (fun p => (.inp, p)) ++ b.uEpts.map (fun p => (.ept, p)) ++ b.uFilts.map (fun p => (.filt, p))

/-- **C27 (required connections).**  The broker reports a required connection as missing exactly when one of the
waiting requests, of whatever kind, bears the mark `required` (bit 2). -/
theorem C27_required (b : Broker) : b.hasRequiredUnknowns = true ↔ ∃ w ∈ b.waiting, w.2.2.2.getLsbD 2 = true := by
  unfold hasRequiredUnknowns waiting
  simp only [Bool.or_eq_true, List.any_eq_true, List.mem_append, List.mem_map, requiredFlag, Flags.C28_check _ 2 (by decide)]
  constructor
  · rintro (((⟨p, h, h'⟩ | ⟨p, h, h'⟩) | ⟨p, h, h'⟩) | ⟨p, h, h'⟩)
    · exact ⟨(.pub, p), .inl (.inl (.inl ⟨p, h, rfl⟩)), h'⟩
    · exact ⟨(.inp, p), .inl (.inl (.inr ⟨p, h, rfl⟩)), h'⟩
    · exact ⟨(.ept, p), .inl (.inr ⟨p, h, rfl⟩), h'⟩
    · exact ⟨(.filt, p), .inr ⟨p, h, rfl⟩, h'⟩
  · rintro ⟨w, (((⟨p, h, rfl⟩ | ⟨p, h, rfl⟩) | ⟨p, h, rfl⟩) | ⟨p, h, rfl⟩), h'⟩
    · exact .inl (.inl (.inl ⟨p, h, h'⟩))
    · exact .inl (.inl (.inr ⟨p, h, h'⟩))
    · exact .inl (.inr ⟨p, h, h'⟩)
    · exact .inr ⟨p, h, h'⟩

/-- A required request for an interface that is not registered is among them at once. -/
theorem C27_required_request (b : Broker) (w : Want) (n : IName) (src : GHandle) (fl : BitVec 16) (isEpt : Bool)
    (hno : b.handles.byName n w.kind = none) (hfl : fl.getLsbD 2 = true) :
    (b.request w n src fl isEpt).hasRequiredUnknowns = true := by
  rw [C27_required]
  refine ⟨(w, n, src, fl), ?_, hfl⟩
  unfold request waiting
  dsimp only
  rw [addReconnectable_handles, hno]
  dsimp only
  unfold addUnknown
  cases w <;> simp

example : (({} : Broker).request .inp [5] ⟨1, 0⟩ 0x4 false).hasRequiredUnknowns = true ∧
    (({} : Broker).request .inp [5] ⟨1, 0⟩ 0x2 false).hasRequiredUnknowns = false := by decide +kernel

end Broker
end Verif
