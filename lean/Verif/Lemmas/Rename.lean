import Verif.Props.RenameSpec
import Verif.Props.Nameless
/-!
# Lemmas for C67
-/
namespace Verif.Rename

theorem find_some {pat s : Text} {i : Nat} (h : find pat s = some i) :
    ∃ a b, s = a ++ pat ++ b ∧ a.length = i ∧ ∀ a' b', s = a' ++ pat ++ b' → i ≤ a'.length := by
  induction s generalizing i with
  | nil => cases h
  | cons c cs ih =>
    unfold find at h
    split at h
    · rename_i hp
      obtain ⟨b, hb⟩ := List.isPrefixOf_iff_prefix.1 hp
      cases h
      exact ⟨[], b, by simp [hb], rfl, fun _ _ _ => Nat.zero_le _⟩
    · rename_i hp
      rw [Option.map_eq_some_iff] at h
      obtain ⟨j, hj, rfl⟩ := h
      obtain ⟨a, b, e1, e2, e3⟩ := ih hj
      refine ⟨c :: a, b, by simp [e1], by simp [e2], fun a' b' he => ?_⟩
      cases a' with
      | nil => exact absurd (List.isPrefixOf_iff_prefix.2 ⟨b', by simpa using he.symm⟩) hp
      | cons x xs =>
        simp only [List.cons_append, List.cons.injEq] at he
        have := e3 xs b' he.2
        simp only [List.length_cons]; omega

theorem find_none {pat s : Text} (hp : pat ≠ []) (h : find pat s = none) : ∀ a b, s ≠ a ++ pat ++ b := by
  induction s with
  | nil => intro a b e; exact hp (List.append_eq_nil_iff.1 (List.append_eq_nil_iff.1 e.symm).1).2
  | cons c cs ih =>
    unfold find at h
    split at h
    · cases h
    · rename_i hq
      rw [Option.map_eq_none_iff] at h
      intro a b e
      cases a with
      | nil => exact hq (List.isPrefixOf_iff_prefix.2 ⟨b, by simpa using e.symm⟩)
      | cons x xs =>
        simp only [List.cons_append, List.cons.injEq] at e
        exact ih h xs b e.2

theorem find_isSome {pat s : Text} (hp : pat ≠ []) : (find pat s).isSome = true ↔ Contains s pat := by
  cases h : find pat s with
  | none => simpa [Contains] using find_none hp h
  | some i => obtain ⟨a, b, e, _⟩ := find_some h; simpa using ⟨a, b, e⟩

theorem template_find {t pre suf : Text} (h : Template t pre suf) : find marker t = some pre.length := by
  cases hf : find marker t with
  | none => exact absurd h.1 (find_none (by decide) hf pre suf)
  | some i =>
    obtain ⟨a, b, e1, e2, e3⟩ := find_some hf
    have h1 := e3 pre suf h.1
    have h2 := h.2 a b e1
    congr 1; omega

theorem find_template {t : Text} {i : Nat} (h : find marker t = some i) : ∃ pre suf, Template t pre suf ∧ pre.length = i := by
  obtain ⟨a, b, e1, e2, e3⟩ := find_some h
  exact ⟨a, b, ⟨e1, fun a' b' he => by rw [e2]; exact e3 a' b' he⟩, e2⟩

theorem template_unique {t p s p' s' : Text} (h : Template t p s) (h' : Template t p' s') : p = p' ∧ s = s' := by
  have hl : p.length = p'.length := Nat.le_antisymm (h.2 _ _ h'.1) (h'.2 _ _ h.1)
  have e := h.1.symm.trans h'.1
  rw [List.append_assoc, List.append_assoc] at e
  obtain ⟨e1, e2⟩ := List.append_inj e hl
  exact ⟨e1, List.append_cancel_left e2⟩

theorem not_both {t p s : Text} (h : Template t p s) (h' : NoMarker t) : False := h' _ _ h.1

theorem noMarker_find {t : Text} (h : NoMarker t) : find marker t = none := by
  cases hf : find marker t with
  | none => rfl
  | some i => obtain ⟨p, s, hp, _⟩ := find_template hf; exact (not_both hp h).elim

theorem noMarker_or (t : Text) : NoMarker t ∨ ∃ p s, Template t p s := by
  cases hf : find marker t with
  | none => exact .inl (find_none (by decide) hf)
  | some i => obtain ⟨p, s, hp, _⟩ := find_template hf; exact .inr ⟨p, s, hp⟩

theorem replace_template {t pre suf : Text} (h : Template t pre suf) (r : Text) : replace4 t pre.length r = pre ++ r ++ suf := by
  have e := h.1
  unfold replace4
  have h1 : t.take pre.length = pre := by rw [e, List.append_assoc]; simp
  have h2 : t.drop (pre.length + 4) = suf := by
    rw [e, List.drop_append_of_le_length (by simp)]
    simp
  rw [h1, h2]

/-- The numbers held after the requests `before`. -/
def Holds (r : Renamers) (before : List Text) : Prop :=
  ∀ t, (NoMarker t → r.lookup t = none) ∧
    (¬ NoMarker t → r.lookup t = if before.count t = 0 then none else some (before.count t))

theorem lookup_map_add (r : Renamers) (name t : Text) :
    (r.map fun e => if e.1 = name then (e.1, e.2 + 1) else e).lookup t
      = if t = name then (r.lookup t).map (· + 1) else r.lookup t := by
  induction r with
  | nil => simp
  | cons e es ih =>
    obtain ⟨k, n⟩ := e
    simp only [List.map_cons]
    by_cases hk : k = name
    · by_cases ht : t = name
      · simp [hk, ht]
      · have : (t == name) = false := by simpa using ht
        simp [hk, ht, List.lookup_cons, this, ih]
    · by_cases ht : t = k
      · subst ht; simp [hk]
      · have : (t == k) = false := by simpa using ht
        simp only [hk, if_false, List.lookup_cons, this, ih]

theorem generate_spec {r : Renamers} {before : List Text} (h : Holds r before) (t : Text) :
    Asks before t (generateRename r t).1 ∧ Holds (generateRename r t).2 (before ++ [t]) := by
  rcases noMarker_or t with hn | ⟨p, s, hp⟩
  · have e : generateRename r t = (t, r) := by unfold generateRename; rw [noMarker_find hn]
    rw [e]
    refine ⟨.plain hn, fun t' => ⟨(h t').1, fun hm => ?_⟩⟩
    have : t ≠ t' := fun e => hm (e ▸ hn)
    rw [(h t').2 hm, List.count_append, List.count_eq_zero.2 (by simpa using this.symm : t' ∉ [t]), Nat.add_zero]
  · have hm : ¬ NoMarker t := fun x => not_both hp x
    have hl := (h t).2 hm
    have other : ∀ t', t' ≠ t → (before ++ [t]).count t' = before.count t' := by
      intro t' hne
      rw [List.count_append, List.count_eq_zero.2 (by simpa using hne : t' ∉ [t]), Nat.add_zero]
    have self : (before ++ [t]).count t = before.count t + 1 := by simp
    by_cases hc : before.count t = 0
    · rw [if_pos hc] at hl
      have e : generateRename r t = (p ++ ['1'] ++ s, (t, 1) :: r) := by
        unfold generateRename; rw [template_find hp]; dsimp only; rw [hl]; dsimp only; rw [replace_template hp]
      rw [e]
      refine ⟨?_, fun t' => ⟨fun hn => ?_, fun hm' => ?_⟩⟩
      · have := Asks.template (before := before) p s hp
        rw [hc] at this
        exact this
      · have : t' ≠ t := fun e => hm (e ▸ hn)
        have hb : (t' == t) = false := by simpa using this
        simp only [List.lookup_cons, hb]
        exact (h t').1 hn
      · by_cases ht : t' = t
        · subst ht
          rw [self, hc]
          simp
        · have hb : (t' == t) = false := by simpa using ht
          simp only [List.lookup_cons, hb]
          rw [other t' ht]
          exact (h t').2 hm'
    · rw [if_neg hc] at hl
      have e : generateRename r t = (p ++ Nat.toDigits 10 (before.count t + 1) ++ s,
          r.map fun e => if e.1 = t then (e.1, e.2 + 1) else e) := by
        unfold generateRename; rw [template_find hp]; dsimp only; rw [hl]; dsimp only; rw [replace_template hp]
      rw [e]
      refine ⟨.template p s hp, fun t' => ⟨fun hn => ?_, fun hm' => ?_⟩⟩
      · have : t' ≠ t := fun e => hm (e ▸ hn)
        rw [lookup_map_add, if_neg this]
        exact (h t').1 hn
      · rw [lookup_map_add]
        by_cases ht : t' = t
        · subst ht
          rw [if_pos rfl, hl, self]
          simp
        · rw [if_neg ht, other t' ht]
          exact (h t').2 hm'

theorem holds_nil : Holds [] [] := fun t => ⟨fun _ => rfl, fun _ => by simp⟩

/-- Requests are named by the requests before them. -/
theorem Asks.unique {before : List Text} {t a b : Text} (h : Asks before t a) (h' : Asks before t b) : a = b := by
  cases h with
  | plain hn => cases h' with
    | plain _ => rfl
    | template p s hp => exact (not_both hp hn).elim
  | template p s hp => cases h' with
    | plain hn => exact (not_both hp hn).elim
    | template p' s' hp' => obtain ⟨rfl, rfl⟩ := template_unique hp hp'; rfl

theorem digits_ne_nil (n : Nat) : Nat.toDigits 10 n ≠ [] := by
  intro h; have := Nat.length_toDigits_pos (b := 10) (n := n); rw [h] at this; simp at this

/-- Stripping the digits off the end. -/
theorem strip (p p' : Text) (d d' : Text) (hp : ¬ EndsInDigit p) (hp' : ¬ EndsInDigit p')
    (hd : ∀ c ∈ d, c.isDigit = true) (hd' : ∀ c ∈ d', c.isDigit = true) (h : p ++ d = p' ++ d') : p = p' ∧ d = d' := by
  rcases List.append_eq_append_iff.1 h with ⟨a, e1, e2⟩ | ⟨a, e1, e2⟩
  · rcases List.eq_nil_or_concat a with rfl | ⟨l, c, rfl⟩
    · simp at e1 e2; exact ⟨e1.symm, e2⟩
    · exact (hp' ⟨p ++ l, c, by simp [e1], hd c (by rw [e2]; simp)⟩).elim
  · rcases List.eq_nil_or_concat a with rfl | ⟨l, c, rfl⟩
    · simp at e1 e2; exact ⟨e1, e2.symm⟩
    · exact (hp ⟨p' ++ l, c, by simp [e1], hd' c (by rw [e2]; simp)⟩).elim

theorem ends_of_digits (p : Text) (n : Nat) : EndsInDigit (p ++ Nat.toDigits 10 n) := by
  rcases List.eq_nil_or_concat (Nat.toDigits 10 n) with e | ⟨l, c, e⟩
  · exact absurd e (digits_ne_nil n)
  · exact ⟨p ++ l, c, by simp [e], Nat.isDigit_of_mem_toDigits (b := 10) (n := n) (by decide) (by decide) (by rw [e]; simp)⟩

end Verif.Rename
