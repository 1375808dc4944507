import Verif.Props.Reduce
/-!
# C47: cases
-/
namespace Verif.Value
open Verif.Wire (Byte)

/-! ## Cases -/

/-- two doubles, an integer and a source that has not published; the second double in other units -/
def mixed (op : Multi) (f : Dbl → Dbl) : Inp :=
  { inj := .multi, op := op, delta := dZero, multiUnits := true,
    sources := [(.double, none), (.double, some f), (.int, none), (.double, none)] }
def mixedVals : List (Option Val) := [some (.dbl dOne), some (.dbl dZero), some (.int 1#64), none]

theorem mixed_knows (op : Multi) (f : Dbl → Dbl) : (mixed op f).Knows mixedVals := by
  intro i v h
  match i with
  | 0 => cases h; exact ⟨by decide, Or.inl rfl⟩
  | 1 => cases h; exact ⟨by decide, Or.inl rfl⟩
  | 2 => cases h; exact ⟨by decide, Or.inl rfl⟩
  | 3 => cases h
  | n + 4 => cases h

theorem demo_ordered : demo.Ordered where
  irrefl a := by show decide (a.toNat < a.toNat) = false; simp
  asymm a b h := by
    have : a.toNat < b.toNat := by simpa [demo] using h
    show decide (b.toNat < a.toNat) = false
    simp; omega
  negTrans a b c _ _ _ h1 h2 := by
    have h1 : ¬ a.toNat < b.toNat := by simpa [demo] using h1
    have h2 : ¬ b.toNat < c.toNat := by simpa [demo] using h2
    show decide (a.toNat < c.toNat) = false
    simp; omega

theorem mixed_told (op : Multi) (x : Dbl) : (mixed op fun _ => x).told demo 0 mixedVals = [.dbl dOne, .dbl x, .int 1#64] := rfl
theorem demo_ofInt1 : demo.ofInt 1#64 = dOne := by decide +kernel

example : ∃ s1 s2 m, (mixed .max fun _ => dOne).arriveAll demo true (mixedVals.map (Option.map (encVal true))) = .ok s1 ∧
    s1.getValue demo true .dbl = .ok (.dbl m, s2) ∧ m ∈ [dOne, dOne, dOne] ∧ ∀ x ∈ [dOne, dOne, dOne], demo.lt m x = false :=
  max_of_sources demo_ordered ⟨rfl, by decide, rfl⟩ (Or.inl rfl) (mixed_knows _ _)
    (by rw [mixed_told]; simp [Numbers, exDbl, demo_ofInt1]) (by simp) (by simp; decide +kernel)
example : ∃ s1 s2, (mixed .vectorize fun _ => dNaN).arriveAll demo true (mixedVals.map (Option.map (encVal true))) = .ok s1 ∧
    s1.getValue demo true .vec = .ok (.vec [dOne, dNaN, dOne], s2) := by
  have := vectorize_sources (L := demo) (le := true) (s := mixed .vectorize fun _ => dNaN) ⟨rfl, by decide, rfl⟩
    ⟨by simp [mixed], by simp [mixed], by simp [mixed], by simp [mixed]⟩ (mixed_knows _ _) (by rw [mixed_told]; simp)
  rw [mixed_told] at this
  simpa [exVec, demo_ofInt1] using this
example : ∃ s1 s2, ({ inj := .bool, op := .and, delta := dZero } : Inp).arriveAll demo true
      ((boolSources [some true, none, some false]).map (Option.map (encVal true))) = .ok s1 ∧
    s1.getValue demo true .bool = .ok (.bool false, s2) := by
  refine and_of_sources ⟨rfl, by decide, rfl⟩ (bs := [some true, none, some false]) ?_
  intro i v h
  match i with
  | 0 => cases h; exact ⟨by decide, Or.inr ⟨rfl, true, rfl⟩⟩
  | 1 => cases h
  | 2 => cases h; exact ⟨by decide, Or.inr ⟨rfl, false, rfl⟩⟩
  | n + 3 => cases h

theorem zero_text : demo.toStr dZero = asc "0.000000" := by decide +kernel
/-- `and` and `or` on numbers look at the text of the number, and "0.000000" is not one of the false texts: zero counts as true -/
theorem bug_zero_is_true (le : Bool) :
    ∃ s1 s2, ({ inj := .double, op := .and, delta := dZero } : Inp).arriveAll demo le [some (encDbl le dZero)] = .ok s1 ∧
      s1.getValue demo le .bool = .ok (.bool true, s2) := by
  have h := reduced demo le { inj := .double, op := .and, delta := dZero } ⟨rfl, by decide, rfl⟩ [some (.dbl dZero)]
    (by
      intro i v h
      match i with
      | 0 => cases h; exact ⟨by decide, Or.inl rfl⟩
      | n + 1 => cases h)
    [.str (asc "0.000000")] (by simp [Inp.told, inUnits, Inp.src, Inp.common, convertVal, allOk, exStr, zero_text])
    (.str (asc "1")) (by decide +kernel) .bool (.bool true) (by decide +kernel) (by decide)
  obtain ⟨s1, s2, h1, h2, _⟩ := h
  exact ⟨s1, s2, h1, h2⟩

/-- with no source published, collecting a vector reads the first element of an empty list -/
theorem bug_vectorize_nothing (L : Lib) (le : Bool) (s : Inp) (h : s.op = .vectorize) (n : Nat) :
    s.arriveAll L le (List.replicate n none) = .fault := by
  have hg : ∀ n i, s.gather L le i (List.replicate n none) = .ok [] := by
    intro n
    induction n with
    | zero => intro i; rfl
    | succ n ih => intro i; exact ih _
  unfold Inp.arriveAll
  rw [hg, Res.bind_ok]
  simp only [List.map_nil, allOk, Res.bind_ok, Inp.reduce, h, vectorizeOp]
  rfl

/-- vector difference: each element less its successor, so a rising series gives negative differences; and an element
equal to the "invalid" number swallows the difference after it -/
theorem bug_vector_diff (L : Lib) (a b c : Dbl) (ha : a ≠ dInvalid) (hb : b ≠ dInvalid) :
    vecDiff L [.vec [a, b, c]] = .ok (.vec [L.sub a b, L.sub b c]) ∧
    vecDiff L [.vec [a, dInvalid, c]] = .ok (.vec [L.sub a dInvalid]) := by
  simp [vecDiff, asVec, allOk, steps, ha, hb]

end Verif.Value
