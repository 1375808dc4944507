import Verif.Props.ValueCases
/-!
# C47: an input with several sources reads the documented reduction of their current values

docs/user-guide/advanced_topics/multiSourceInputs.md, "Reduction operations on multiple inputs".  A source
is the value it last published, or nothing yet; sources may be of different types and units.
-/
namespace Verif.Value
open Verif.Wire (Byte)

/-! ## What the sources say -/

/-- a source's value in the units of the input -/
def inUnits (L : Lib) (u : Option (Dbl → Dbl)) : Val → Val
  | .dbl x => match u with
    | some f => .dbl (f x)
    | none => .dbl x
  | .int n => match u with
    | some f => .dbl (f (L.ofInt n))
    | none => .int n
  | v => v

/-- values of the sources that have published, in source order, starting with source `i` -/
def Inp.told (L : Lib) (s : Inp) : Nat → List (Option Val) → List Val
  | _, [] => []
  | i, none :: t => s.told L (i + 1) t
  | i, some v :: t => inUnits L (s.src i).2 v :: s.told L (i + 1) t

/-- the input knows the types of its sources; a Boolean source publishes the text "0" or "1" -/
def Inp.Knows (s : Inp) (xs : List (Option Val)) : Prop :=
  ∀ i v, xs[i]? = some (some v) → v.count < 2 ^ 32 ∧ ((s.src i).1 = v.loc' ∨ ((s.src i).1 = .bool ∧ ∃ b, v = .str (bStr b)))

/-- a reduction without change detection -/
structure Inp.Reduces (s : Inp) (o : Multi) : Prop where
  op : s.op = o
  real : o ≠ .none
  off : s.changeOn = false

theorem oneSource_enc (L : Lib) (le : Bool) (u : Option (Dbl → Dbl)) (v : Val) (h : v.count < 2 ^ 32) (t : DT)
    (ht : t = v.loc' ∨ (t = .bool ∧ ∃ b, v = .str (bStr b))) : oneSource L le t u (encVal le v) = .ok (inUnits L u v) := by
  rcases ht with rfl | ⟨rfl, b, rfl⟩
  · cases v with
    | dbl d => cases u <;> simp [oneSource, Val.loc', dblUnits, encVal, decDbl_enc, inUnits]
    | int d => cases u <;> simp [oneSource, Val.loc', intUnits, encVal, decInt_enc, inUnits]
    | str s => rw [oneSource, if_neg (by simp [Val.loc']), if_neg (by simp [Val.loc']), rdVal_encVal L le _ h]; rfl
    | cplx s => rw [oneSource, if_neg (by simp [Val.loc']), if_neg (by simp [Val.loc']), rdVal_encVal L le _ h]; rfl
    | vec s => rw [oneSource, if_neg (by simp [Val.loc']), if_neg (by simp [Val.loc']), rdVal_encVal L le _ h]; rfl
    | cvec s => rw [oneSource, if_neg (by simp [Val.loc']), if_neg (by simp [Val.loc']), rdVal_encVal L le _ h]; rfl
    | np s => rw [oneSource, if_neg (by simp [Val.loc']), if_neg (by simp [Val.loc']), rdVal_encVal L le _ h]; rfl
  · rw [oneSource, if_neg (by decide), if_neg (by decide), rdVal, if_neg (by decide)]
    simp only [Res.bind_ok, encVal, bool_text', Res.map_ok]
    rfl

theorem gather_enc (L : Lib) (le : Bool) (s : Inp) : ∀ (xs : List (Option Val)) (i : Nat),
    (∀ j v, xs[j]? = some (some v) → v.count < 2 ^ 32 ∧ ((s.src (i + j)).1 = v.loc' ∨ ((s.src (i + j)).1 = .bool ∧ ∃ b, v = .str (bStr b)))) →
    s.gather L le i (xs.map (Option.map (encVal le))) = .ok (s.told L i xs)
  | [], _, _ => rfl
  | none :: t, i, h => by
    simp only [List.map_cons, Option.map_none, Inp.gather, Inp.told]
    refine gather_enc L le s t (i + 1) fun j v hj => ?_
    have := h (j + 1) v (by simpa using hj)
    rwa [show i + 1 + j = i + (j + 1) by omega]
  | some v :: t, i, h => by
    have h0 := h 0 v rfl
    rw [Nat.add_zero] at h0
    simp only [List.map_cons, Option.map_some, Inp.gather, Inp.told]
    rw [oneSource_enc L le _ v h0.1 _ h0.2, Res.bind_ok, gather_enc L le s t (i + 1) fun j w hj => ?_]
    · rfl
    · have := h (j + 1) w (by simpa using hj)
      rwa [show i + 1 + j = i + (j + 1) by omega]

theorem allOk_of {α : Type} (l : List α) : allOk (l.map Res.ok) = .ok l := by
  induction l with
  | nil => rfl
  | cons a t ih => simp [allOk, ih]

theorem allOk_mk {α β : Type} (f : α → Res β) (l : List α) (g : α → β) (h : ∀ a ∈ l, f a = .ok (g a)) : allOk (l.map f) = .ok (l.map g) := by
  rw [List.map_congr_left h]
  have := allOk_of (l.map g)
  rwa [List.map_map] at this

/-- the value read is the reduction of the converted values -/
theorem reduced (L : Lib) (le : Bool) (s : Inp) {op : Multi} (hr : s.Reduces op) (xs : List (Option Val)) (hk : s.Knows xs) (ws : List Val)
    (hw : allOk ((s.told L 0 xs).map fun v => convertVal L v s.common) = .ok ws) (r : Val) (hres : s.reduce L ws = .ok r) (k : Kind) (g : Got)
    (hg : ex L r k = .ok g) (hkc : k ≠ .chr) :
    ∃ s1 s2, s.arriveAll L le (xs.map (Option.map (encVal le))) = .ok s1 ∧ s1.getValue L le k = .ok (g, s2) ∧ s1.upd = true := by
  have h1 : s.arriveAll L le (xs.map (Option.map (encVal le))) = .ok { s with fedUpd := false, last := r, upd := true } := by
    unfold Inp.arriveAll
    rw [gather_enc L le s xs 0 (by intro j v h; rw [Nat.zero_add]; exact hk j v h), Res.bind_ok, hw, Res.bind_ok, hres, Res.map_ok]
    simp only [hr.off]
    rfl
  refine ⟨_, Inp.asked { s with fedUpd := false, last := r, upd := false }, h1, ?_, rfl⟩
  unfold Inp.getValue
  rw [if_neg hkc, if_neg (by simp [Inp.fresh, hr.op, hr.real]), hg, Res.map_ok]
  simp [Inp.asked, hr.op, hr.real]

/-- a number for each value told -/
def Numbers (L : Lib) (vs : List Val) (ns : List Dbl) : Prop := vs.map (exDbl L) = ns.map Res.ok

theorem told_nums {L : Lib} : ∀ {vs : List Val} {ns : List Dbl}, Numbers L vs ns →
    allOk (vs.map fun v => convertVal L v .double) = .ok (ns.map Val.dbl)
  | [], [], _ => rfl
  | v :: t, n :: m, h => by
    simp only [Numbers, List.map_cons, List.cons.injEq] at h
    have h1 : convertVal L v .double = .ok (.dbl n) := by
      cases v <;> simp only [convertVal] <;> first | rw [h.1]; rfl | skip
      have := h.1
      simp only [exDbl, Res.ok.injEq] at this
      rw [this]
    simp only [List.map_cons, allOk, h1, Res.bind_ok, told_nums (L := L) (vs := t) (ns := m) h.2, Res.map_ok]
  | [], _ :: _, h => by simp [Numbers] at h
  | _ :: _, [], h => by simp [Numbers] at h

/-! ## Largest and smallest -/

/-- `<` on doubles that are numbers: irreflexive, and "not less" is transitive -/
structure Lib.Ordered (L : Lib) : Prop where
  irrefl : ∀ a, L.lt a a = false
  asymm : ∀ a b, L.lt a b = true → L.lt b a = false
  negTrans : ∀ a b c, isNaN a = false → isNaN b = false → isNaN c = false → L.lt a b = false → L.lt b c = false → L.lt a c = false

theorem best_mem {α : Type} (f : α → α → Bool) : ∀ (t : List α) (a : α), best f a t ∈ a :: t
  | [], a => by simp [best]
  | b :: t, a => by
    have := best_mem f t (if f b a then b else a)
    simp only [best]
    rcases List.mem_cons.mp this with h | h
    · rw [h]; split <;> simp
    · simp [h]

theorem best_bound {f : Dbl → Dbl → Bool} (hi : ∀ a, f a a = false) (has : ∀ a b, f a b = true → f b a = false)
    (hn : ∀ a b c, isNaN a = false → isNaN b = false → isNaN c = false → f a b = false → f b c = false → f a c = false) :
    ∀ (t : List Dbl) (a : Dbl), isNaN a = false → (∀ x ∈ t, isNaN x = false) → ∀ x ∈ a :: t, f x (best f a t) = false
  | [], a, _, _, x, hx => by simp at hx; subst hx; exact hi _
  | b :: t, a, ha, ht, x, hx => by
    have hb : isNaN b = false := ht b (by simp)
    have ht' : ∀ x ∈ t, isNaN x = false := fun x h => ht x (List.mem_cons_of_mem _ h)
    have hc : isNaN (if f b a then b else a) = false := by split <;> assumption
    have ih := best_bound hi has hn t (if f b a then b else a) hc ht'
    have hm := best_mem f t (if f b a then b else a)
    have hbest : isNaN (best f (if f b a then b else a) t) = false := by
      rcases List.mem_cons.mp hm with h | h
      · rw [h]; exact hc
      · exact ht' _ h
    simp only [best]
    by_cases hba : f b a = true
    · rw [if_pos hba] at ih hbest ⊢
      rcases List.mem_cons.mp hx with rfl | h
      · exact hn _ _ _ ha hb hbest (has _ _ hba) (ih b (by simp))
      · exact ih x h
    · rw [if_neg hba] at ih hbest ⊢
      rcases List.mem_cons.mp hx with rfl | h
      · exact ih _ (by simp)
      · rcases List.mem_cons.mp h with rfl | h
        · exact hn _ _ _ hb ha hbest (by simpa using hba) (ih a (by simp))
        · exact ih x (List.mem_cons_of_mem _ h)

/-- the target type asks for a number -/
def Inp.forNumber (s : Inp) : Prop := s.target = .unknown ∨ s.target = .double

theorem max_of_sources {L : Lib} (ho : L.Ordered) {le : Bool} {s : Inp} (hr : s.Reduces .max) (ht : s.forNumber) {xs : List (Option Val)}
    (hk : s.Knows xs) {ns : List Dbl} (hns : Numbers L (s.told L 0 xs) ns) (hne : ns ≠ []) (hnan : ∀ x ∈ ns, isNaN x = false) :
    ∃ s1 s2 m, s.arriveAll L le (xs.map (Option.map (encVal le))) = .ok s1 ∧ s1.getValue L le .dbl = .ok (.dbl m, s2) ∧
      m ∈ ns ∧ ∀ x ∈ ns, L.lt m x = false := by
  have hc : s.common = .double := by unfold Inp.common; rw [hr.op]; rcases ht with h | h <;> simp [h]
  match ns, hne with
  | a :: t, _ =>
    have hred : s.reduce L ((a :: t).map Val.dbl) = .ok (.dbl (best (fun a b => L.lt b a) a t)) := by
      unfold Inp.reduce
      rw [hr.op]
      simp only [extreme, List.map_cons, List.map_map]
      rw [show List.map (asDbl ∘ Val.dbl) t = t.map Res.ok from rfl, allOk_of]
      rfl
    obtain ⟨s1, s2, h1, h2, _⟩ := reduced L le s hr xs hk _ (by rw [hc]; exact told_nums hns) _ hred .dbl _ rfl (by decide)
    refine ⟨s1, s2, _, h1, h2, best_mem _ _ _, ?_⟩
    exact best_bound (f := fun a b => L.lt b a) ho.irrefl (fun a b h => ho.asymm b a h)
      (fun a b c x y z h1 h2 => ho.negTrans c b a z y x h2 h1) t a (hnan a (by simp)) (fun x h => hnan x (List.mem_cons_of_mem _ h))

theorem min_of_sources {L : Lib} (ho : L.Ordered) {le : Bool} {s : Inp} (hr : s.Reduces .min) (ht : s.forNumber) {xs : List (Option Val)}
    (hk : s.Knows xs) {ns : List Dbl} (hns : Numbers L (s.told L 0 xs) ns) (hne : ns ≠ []) (hnan : ∀ x ∈ ns, isNaN x = false) :
    ∃ s1 s2 m, s.arriveAll L le (xs.map (Option.map (encVal le))) = .ok s1 ∧ s1.getValue L le .dbl = .ok (.dbl m, s2) ∧
      m ∈ ns ∧ ∀ x ∈ ns, L.lt x m = false := by
  have hc : s.common = .double := by unfold Inp.common; rw [hr.op]; rcases ht with h | h <;> simp [h]
  match ns, hne with
  | a :: t, _ =>
    have hred : s.reduce L ((a :: t).map Val.dbl) = .ok (.dbl (best (fun a b => L.lt a b) a t)) := by
      unfold Inp.reduce
      rw [hr.op]
      simp only [extreme, List.map_cons, List.map_map]
      rw [show List.map (asDbl ∘ Val.dbl) t = t.map Res.ok from rfl, allOk_of]
      rfl
    obtain ⟨s1, s2, h1, h2, _⟩ := reduced L le s hr xs hk _ (by rw [hc]; exact told_nums hns) _ hred .dbl _ rfl (by decide)
    exact ⟨s1, s2, _, h1, h2, best_mem _ _ _, best_bound (f := fun a b => L.lt a b) ho.irrefl ho.asymm ho.negTrans t a
      (hnan a (by simp)) (fun x h => hnan x (List.mem_cons_of_mem _ h))⟩

/-- the first source's number less those of the others, one after the other -/
theorem diff_of_sources {L : Lib} {le : Bool} {s : Inp} (hr : s.Reduces .diff) (ht : s.forNumber) {xs : List (Option Val)}
    (hk : s.Knows xs) {a : Dbl} {t : List Dbl} (hns : Numbers L (s.told L 0 xs) (a :: t)) :
    ∃ s1 s2, s.arriveAll L le (xs.map (Option.map (encVal le))) = .ok s1 ∧ s1.getValue L le .dbl = .ok (.dbl (t.foldl L.sub a), s2) := by
  have hc : s.common = .double := by unfold Inp.common; rw [hr.op]; rcases ht with h | h <;> simp [h]
  have hred : s.reduce L ((a :: t).map Val.dbl) = .ok (.dbl (t.foldl L.sub a)) := by
    unfold Inp.reduce
    rw [hr.op]
    simp only [hc]
    rw [if_neg (by decide)]
    simp only [diffOp, List.map_cons, List.map_map]
    rw [show List.map (asDbl ∘ Val.dbl) t = t.map Res.ok from rfl, allOk_of]
    rfl
  obtain ⟨s1, s2, h1, h2, _⟩ := reduced L le s hr xs hk _ (by rw [hc]; exact told_nums hns) _ hred .dbl _ rfl (by decide)
  exact ⟨s1, s2, h1, h2⟩

/-! ## Sum, average, vector -/

/-- the target type asks for numbers -/
def Inp.forNumbers (s : Inp) : Prop := s.target ≠ .string ∧ s.target ≠ .char ∧ s.target ≠ .complex ∧ s.target ≠ .cvector

theorem told_vec {L : Lib} (vs : List Val) :
    allOk (vs.map fun v => convertVal L v .vector) = .ok ((vs.map (exVec L)).map Val.vec) := by
  rw [List.map_map]
  refine allOk_mk _ _ _ fun v _ => ?_
  cases v <;> rfl

theorem vec_back (ls : List (List Dbl)) : allOk ((ls.map Val.vec).map asVec) = .ok ls := by
  rw [List.map_map]
  exact allOk_of ls

/-- the sum of all numbers of all sources, in order -/
theorem sum_of_sources {L : Lib} {le : Bool} {s : Inp} (hr : s.Reduces .sum) (ht : s.forNumbers) {xs : List (Option Val)}
    (hk : s.Knows xs) (hne : s.told L 0 xs ≠ []) :
    ∃ s1 s2, s.arriveAll L le (xs.map (Option.map (encVal le))) = .ok s1 ∧
      s1.getValue L le .dbl = .ok (.dbl (((s.told L 0 xs).map (exVec L)).flatten.foldl L.add dZero), s2) := by
  have hc : s.common = .vector := by
    unfold Inp.common
    rw [hr.op]
    obtain ⟨h1, h2, h3, h4⟩ := ht
    dsimp only
    split <;> simp_all
  have hred : s.reduce L (((s.told L 0 xs).map (exVec L)).map Val.vec) =
      .ok (.dbl (((s.told L 0 xs).map (exVec L)).flatten.foldl L.add dZero)) := by
    unfold Inp.reduce
    rw [hr.op]
    dsimp only
    match h : s.told L 0 xs, hne with
    | v :: t, _ =>
      show vecSum L _ = _
      unfold vecSum
      rw [vec_back]
      rfl
  obtain ⟨s1, s2, h1, h2, _⟩ := reduced L le s hr xs hk _ (by rw [hc]; exact told_vec _) _ hred .dbl _ rfl (by decide)
  exact ⟨s1, s2, h1, h2⟩

/-- that sum divided by how many numbers there are -/
theorem average_of_sources {L : Lib} {le : Bool} {s : Inp} (hr : s.Reduces .average) {xs : List (Option Val)}
    (hk : s.Knows xs) :
    ∃ s1 s2, s.arriveAll L le (xs.map (Option.map (encVal le))) = .ok s1 ∧
      s1.getValue L le .dbl = .ok (.dbl (L.div (((s.told L 0 xs).map (exVec L)).flatten.foldl L.add dZero)
        (L.ofInt (BitVec.ofNat 64 ((s.told L 0 xs).map (exVec L)).flatten.length))), s2) := by
  have hc : s.common = .vector := by unfold Inp.common; rw [hr.op]
  have hred : s.reduce L (((s.told L 0 xs).map (exVec L)).map Val.vec) =
      .ok (.dbl (L.div (((s.told L 0 xs).map (exVec L)).flatten.foldl L.add dZero)
        (L.ofInt (BitVec.ofNat 64 ((s.told L 0 xs).map (exVec L)).flatten.length)))) := by
    unfold Inp.reduce
    rw [hr.op]
    dsimp only
    unfold vecAvg
    rw [vec_back]
    rfl
  obtain ⟨s1, s2, h1, h2, _⟩ := reduced L le s hr xs hk _ (by rw [hc]; exact told_vec _) _ hred .dbl _ rfl (by decide)
  exact ⟨s1, s2, h1, h2⟩

/-- all numbers of all sources as one vector, in source order -/
theorem vectorize_sources {L : Lib} {le : Bool} {s : Inp} (hr : s.Reduces .vectorize) (ht : s.forNumbers) {xs : List (Option Val)}
    (hk : s.Knows xs) (hne : s.told L 0 xs ≠ []) :
    ∃ s1 s2, s.arriveAll L le (xs.map (Option.map (encVal le))) = .ok s1 ∧
      s1.getValue L le .vec = .ok (.vec ((s.told L 0 xs).map (exVec L)).flatten, s2) := by
  have hc : s.common = .vector := by
    unfold Inp.common
    rw [hr.op]
    obtain ⟨h1, h2, h3, h4⟩ := ht
    dsimp only
    split <;> simp_all
  have hred : s.reduce L (((s.told L 0 xs).map (exVec L)).map Val.vec) = .ok (.vec ((s.told L 0 xs).map (exVec L)).flatten) := by
    unfold Inp.reduce
    rw [hr.op]
    dsimp only
    match h : s.told L 0 xs, hne with
    | v :: t, _ =>
      show Res.map _ (allOk (List.map asVec _)) = _
      rw [vec_back]
      rfl
  obtain ⟨s1, s2, h1, h2, _⟩ := reduced L le s hr xs hk _ (by rw [hc]; exact told_vec _) _ hred .vec _ rfl (by decide)
  exact ⟨s1, s2, h1, h2⟩

/-! ## Text and Booleans -/

theorem told_str (L : Lib) (vs : List Val) (t : DT) (ht : t = .string ∨ t = .bool) :
    allOk (vs.map fun v => convertVal L v t) = .ok ((vs.map (exStr L)).map Val.str) := by
  rw [List.map_map]
  refine allOk_mk _ _ _ fun v _ => ?_
  rcases ht with rfl | rfl <;> cases v <;> rfl

/-- for a text input the texts of the sources are put together -/
theorem text_sum_of_sources {L : Lib} {le : Bool} {s : Inp} (hr : s.Reduces .sum) (ht : s.target = .string ∨ s.target = .char)
    {xs : List (Option Val)} (hk : s.Knows xs) :
    ∃ s1 s2, s.arriveAll L le (xs.map (Option.map (encVal le))) = .ok s1 ∧
      s1.getValue L le .str = .ok (.str ((s.told L 0 xs).map (exStr L)).flatten, s2) := by
  have hc : s.common = .string := by unfold Inp.common; rw [hr.op]; rcases ht with h | h <;> simp [h]
  have hred : s.reduce L (((s.told L 0 xs).map (exStr L)).map Val.str) = .ok (.str ((s.told L 0 xs).map (exStr L)).flatten) := by
    unfold Inp.reduce
    rw [hr.op]
    dsimp only
    generalize (s.told L 0 xs).map (exStr L) = l
    match l with
    | [] => rfl
    | a :: t =>
      show Res.ok (Val.str (List.map (exStr L) (List.map Val.str (a :: t))).flatten) = _
      rw [List.map_map]
      have : (exStr L ∘ Val.str) = id := rfl
      rw [this, List.map_id]
  obtain ⟨s1, s2, h1, h2, _⟩ := reduced L le s hr xs hk _ (by rw [hc]; exact told_str L _ _ (Or.inl rfl)) _ hred .str _ rfl (by decide)
  exact ⟨s1, s2, h1, h2⟩

/-- Boolean sources -/
def boolSources (bs : List (Option Bool)) : List (Option Val) := bs.map (Option.map fun b => .str (bStr b))

theorem told_bools (L : Lib) (s : Inp) : ∀ (bs : List (Option Bool)) (i : Nat),
    s.told L i (boolSources bs) = (bs.filterMap id).map fun b => .str (bStr b)
  | [], _ => rfl
  | none :: t, i => by
    have := told_bools L s t (i + 1)
    simp only [boolSources, List.map_cons, Option.map_none, Inp.told, List.filterMap_cons, id] at this ⊢
    exact this
  | some b :: t, i => by
    have := told_bools L s t (i + 1)
    simp only [boolSources, List.map_cons, Option.map_some, Inp.told, List.filterMap_cons, id, inUnits] at this ⊢
    rw [this]

theorem bStr_value (b : Bool) : boolValue (bStr b) = b := by cases b <;> decide

theorem bool_str_map (L : Lib) (bs : List Bool) : ((bs.map fun b => Val.str (bStr b)).map (exStr L)).map Val.str = bs.map fun b => Val.str (bStr b) := by
  rw [List.map_map, List.map_map]; rfl

/-- `and`: all the sources that have published are true -/
theorem and_of_sources {L : Lib} {le : Bool} {s : Inp} (hr : s.Reduces .and) {bs : List (Option Bool)} (hk : s.Knows (boolSources bs)) :
    ∃ s1 s2, s.arriveAll L le ((boolSources bs).map (Option.map (encVal le))) = .ok s1 ∧
      s1.getValue L le .bool = .ok (.bool (decide (∀ b, some b ∈ bs → b = true)), s2) := by
  have hc : s.common = .bool := by unfold Inp.common; rw [hr.op]
  have hall : ((bs.filterMap id).map fun b => Val.str (bStr b)).all (exBool L) = decide (∀ b, some b ∈ bs → b = true) := by
    rw [Bool.eq_iff_iff, List.all_eq_true, decide_eq_true_iff]
    simp only [List.mem_map, List.mem_filterMap, id]
    constructor
    · intro h b hb
      have := h _ ⟨b, ⟨some b, hb, rfl⟩, rfl⟩
      simpa [exBool, bStr_value] using this
    · rintro h x ⟨b, ⟨o, ho, e⟩, rfl⟩
      subst e
      simp [exBool, bStr_value, h b ho]
  have hred : s.reduce L ((bs.filterMap id).map fun b => Val.str (bStr b)) =
      .ok (.str (if decide (∀ b, some b ∈ bs → b = true) then asc "1" else asc "0")) := by
    unfold Inp.reduce
    rw [hr.op]
    dsimp only
    rw [hall]
  obtain ⟨s1, s2, h1, h2, _⟩ := reduced L le s hr (boolSources bs) hk _
    (by rw [hc, told_bools, told_str L _ _ (Or.inr rfl), bool_str_map]) _ hred .bool _ rfl (by decide)
  refine ⟨s1, s2, h1, ?_⟩
  rw [h2]
  have e : ∀ x : Bool, boolValue (if x then asc "1" else asc "0") = x := bStr_value
  simp only [exBool, e]

/-- `or`: one of them is -/
theorem or_of_sources {L : Lib} {le : Bool} {s : Inp} (hr : s.Reduces .or) {bs : List (Option Bool)} (hk : s.Knows (boolSources bs)) :
    ∃ s1 s2, s.arriveAll L le ((boolSources bs).map (Option.map (encVal le))) = .ok s1 ∧
      s1.getValue L le .bool = .ok (.bool (decide (some true ∈ bs)), s2) := by
  have hc : s.common = .bool := by unfold Inp.common; rw [hr.op]
  have hany : ((bs.filterMap id).map fun b => Val.str (bStr b)).any (exBool L) = decide (some true ∈ bs) := by
    rw [Bool.eq_iff_iff, List.any_eq_true, decide_eq_true_iff]
    simp only [List.mem_map, List.mem_filterMap, id]
    constructor
    · rintro ⟨x, ⟨b, ⟨o, ho, e⟩, rfl⟩, hx⟩
      subst e
      have : b = true := by simpa [exBool, bStr_value] using hx
      rwa [this] at ho
    · intro h
      exact ⟨_, ⟨true, ⟨_, h, rfl⟩, rfl⟩, by simp [exBool, bStr_value]⟩
  have hred : s.reduce L ((bs.filterMap id).map fun b => Val.str (bStr b)) =
      .ok (.str (if decide (some true ∈ bs) then asc "1" else asc "0")) := by
    unfold Inp.reduce
    rw [hr.op]
    dsimp only
    rw [hany]
  obtain ⟨s1, s2, h1, h2, _⟩ := reduced L le s hr (boolSources bs) hk _
    (by rw [hc, told_bools, told_str L _ _ (Or.inr rfl), bool_str_map]) _ hred .bool _ rfl (by decide)
  refine ⟨s1, s2, h1, ?_⟩
  rw [h2]
  have e : ∀ x : Bool, boolValue (if x then asc "1" else asc "0") = x := bStr_value
  simp only [exBool, e]

end Verif.Value
