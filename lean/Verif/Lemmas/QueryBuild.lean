import Verif.Props.QuerySpec
/-! The map under construction, for C57. -/
namespace Verif.Query

variable {net : Net}

theorem mem_kids {v u : Node} : u ∈ net.kids v ↔ u < net.size ∧ u ≠ 0 ∧ net.par u = v := by
  unfold Net.kids
  simp [List.mem_filter, List.mem_range]

theorem kids_nodup (v : Node) : (net.kids v).Nodup := by
  unfold Net.kids
  exact List.Pairwise.filter _ List.nodup_range

/-- place holders: numbered from `k` -/
def number (k : Nat) : List Node → List (Nat × Node)
  | [] => []
  | u :: us => (k, u) :: number (k + 1) us

theorem number_append (k : Nat) (l : List Node) (u : Node) : number k (l ++ [u]) = number k l ++ [(k + l.length, u)] := by
  induction l generalizing k with
  | nil => simp [number]
  | cons a l ih => simp [number, ih]; omega

theorem number_snd (k : Nat) (l : List Node) : (number k l).map (·.2) = l := by
  induction l generalizing k with
  | nil => rfl
  | cons a l ih => simp [number, ih]

theorem number_ge {k n : Nat} {u : Node} {l : List Node} (h : (n, u) ∈ number k l) : k ≤ n := by
  induction l generalizing k with
  | nil => cases h
  | cons a l ih =>
    unfold number at h
    rcases List.mem_cons.1 h with h | h
    · have := congrArg Prod.fst h; simp at this; omega
    · have := ih h; omega

theorem number_lt {k n : Nat} {u : Node} {l : List Node} (h : (n, u) ∈ number k l) : n < k + l.length := by
  induction l generalizing k with
  | nil => cases h
  | cons a l ih =>
    unfold number at h
    rcases List.mem_cons.1 h with h | h
    · have := congrArg Prod.fst h; simp at this; simp; omega
    · have := ih h; simp; omega

theorem number_inj {k n : Nat} {u w : Node} {l : List Node} (h : (n, u) ∈ number k l) (h' : (n, w) ∈ number k l) : u = w := by
  induction l generalizing k with
  | nil => cases h
  | cons a l ih =>
    unfold number at h h'
    rcases List.mem_cons.1 h with h | h <;> rcases List.mem_cons.1 h' with h' | h'
    · have h1 := congrArg Prod.snd h; have h2 := congrArg Prod.snd h'; simp at h1 h2; omega
    · have h1 := congrArg Prod.fst h; have h2 := number_ge h'; simp at h1; omega
    · have h1 := congrArg Prod.fst h'; have h2 := number_ge h; simp at h1; omega
    · exact ih h h'

theorem number_nodup (k : Nat) (l : List Node) : ((number k l).map (·.1)).Nodup := by
  induction l generalizing k with
  | nil => simp [number]
  | cons a l ih =>
    simp only [number, List.map_cons, List.nodup_cons]
    refine ⟨?_, ih _⟩
    intro hm
    obtain ⟨p, hp, he⟩ := List.mem_map.1 hm
    have := number_ge (u := p.2) (n := p.1) hp
    omega

theorem number_mem {k n : Nat} {u : Node} {l : List Node} (h : (n, u) ∈ number k l) : u ∈ l := by
  rw [← number_snd k l]; exact List.mem_map.2 ⟨_, h, rfl⟩

/-- the place holders of `l` -/
def holders (net : Net) (l : List Node) : List (Nat × Kind × Node) := (number 2 l).map (fun p => (p.1, net.kind p.2, p.2))

theorem holders_length (l : List Node) : (holders net l).length = l.length := by
  unfold holders
  rw [List.length_map]
  have := congrArg List.length (number_snd 2 l)
  rwa [List.length_map] at this

theorem holders_append (l : List Node) (u : Node) :
    holders net (l ++ [u]) = holders net l ++ [(l.length + 2, net.kind u, u)] := by
  unfold holders
  rw [number_append, List.map_append]
  simp; omega

theorem holders_fresh (l : List Node) : (holders net l).any (fun p => p.1 == l.length + 2) = false := by
  rw [List.any_eq_false]
  intro p hp
  obtain ⟨q, hq, rfl⟩ := List.mem_map.1 hp
  have := number_lt (n := q.1) (u := q.2) hq
  simp; omega

theorem hold_holders {b : Builder} {l : List Node} (hb : b.missing = holders net l) (u : Node) :
    b.hold (net.kind u) u = ({ b with missing := holders net (l ++ [u]) }, l.length + 2) := by
  unfold Builder.hold
  simp only [hb, holders_length]
  rw [holders_fresh]
  simp [holders_append]

/-- adding to the last place holder at once -/
theorem add_last {b : Builder} {l : List Node} (u : Node) (a : Ans) :
    (Builder.add { b with missing := holders net (l ++ [u]) } a (l.length + 2)).1 =
      { b with missing := holders net l, map := b.map.map (fun t => (t.1, t.2 ++ [(net.kind u, a)])) } := by
  have hf : (holders net l).find? (fun p => p.1 == l.length + 2) = none := by
    rw [List.find?_eq_none]
    have := holders_fresh (net := net) l
    rw [List.any_eq_false] at this
    exact this
  have he : (holders net l).eraseP (fun p => p.1 == l.length + 2) = holders net l := by
    refine List.eraseP_of_forall_not ?_
    have := holders_fresh (net := net) l
    rw [List.any_eq_false] at this
    exact this
  unfold Builder.add
  rw [holders_append]
  simp only [List.find?_append, hf, Option.none_or]
  simp only [List.find?_cons, List.find?_nil, beq_self_eq_true]
  rw [List.eraseP_append_right]
  · simp
  · have := holders_fresh (net := net) l
    rw [List.any_eq_false] at this
    exact this

/-- which members below `v` have to be asked -/
def waits (net : Net) (busy : Node → Bool) (v : Node) : Node → Bool :=
  fun u => if net.kind v = .broker then true else busy u

theorem broker_fold (conn : Node → Bool) (hc : ∀ u, conn u = true) (i : Nat) (ks done : List Node) (b : Builder) (o : List Out)
    (hb : b.missing = holders net done) (ho : o = (number 2 done).map (fun p => Out.down p.2 i p.1)) :
    ks.foldl (brokerTurn net conn i) (b, o) =
      ({ b with missing := holders net (done ++ ks) }, (number 2 (done ++ ks)).map (fun p => Out.down p.2 i p.1)) := by
  induction ks generalizing done b o with
  | nil => simp [← hb, ho]
  | cons u us ih =>
    simp only [List.foldl_cons]
    have h1 : brokerTurn net conn i (b, o) u =
        ({ b with missing := holders net (done ++ [u]) }, (number 2 (done ++ [u])).map (fun p => Out.down p.2 i p.1)) := by
      unfold brokerTurn
      simp only [hc, if_pos]
      rw [hold_holders hb]
      simp only [Prod.mk.injEq, true_and]
      rw [ho, number_append]
      simp; omega
    rw [h1, ih (done ++ [u]) _ _ rfl rfl]
    simp

theorem core_fold (busy : Node → Bool) (now i : Nat) (ks done : List Node) (t : Nat) (es : List (Node × Ans)) (b : Builder) (o : List Out)
    (hk : ∀ u ∈ ks, net.kind u = .fed)
    (hm : b.map = some (t, es.map (fun e => (net.kind e.1, e.2))))
    (hb : b.missing = holders net done) (ho : o = (number 2 done).map (fun p => Out.down p.2 i p.1)) :
    ks.foldl (coreTurn busy now i) (b, o) =
      ({ b with missing := holders net (done ++ ks.filter busy),
                map := some (t, (es ++ (ks.filter (fun u => !busy u)).map (fun u => (u, Ans.doc u i now []))).map (fun e => (net.kind e.1, e.2))) },
        (number 2 (done ++ ks.filter busy)).map (fun p => Out.down p.2 i p.1)) := by
  induction ks generalizing done b o es with
  | nil => simp [← hb, ho, ← hm]
  | cons u us ih =>
    simp only [List.foldl_cons]
    have hku : net.kind u = .fed := hk u (List.mem_cons_self ..)
    have hh := hold_holders hb u
    rw [hku] at hh
    by_cases hbu : busy u = true
    · have h1 : coreTurn busy now i (b, o) u =
          ({ b with missing := holders net (done ++ [u]) }, (number 2 (done ++ [u])).map (fun p => Out.down p.2 i p.1)) := by
        unfold coreTurn
        simp only [hh, hbu, if_pos]
        simp only [Prod.mk.injEq, true_and]
        rw [ho, number_append]
        simp; omega
      rw [h1, ih (done ++ [u]) es { b with missing := holders net (done ++ [u]) } _ (fun w hw => hk w (List.mem_cons_of_mem _ hw)) hm rfl rfl]
      simp [List.filter_cons, hbu]
    · have h1 : coreTurn busy now i (b, o) u =
          ({ b with map := some (t, (es ++ [(u, Ans.doc u i now [])]).map (fun e => (net.kind e.1, e.2))) }, o) := by
        unfold coreTurn
        simp only [hh, hbu]
        rw [add_last]
        simp [hm, hku, ← hb]
      rw [h1, ih done (es ++ [(u, Ans.doc u i now [])]) { b with map := some (t, (es ++ [(u, Ans.doc u i now [])]).map (fun e => (net.kind e.1, e.2))) } _ (fun w hw => hk w (List.mem_cons_of_mem _ hw)) rfl hb ho]
      simp [List.filter_cons, hbu]

/-- the members to be asked, in order -/
def asks (net : Net) (busy : Node → Bool) (v : Node) : List Node := (net.kids v).filter (waits net busy v)

/-- what a new round looks like -/
theorem init_eq (hk : net.kind v ≠ .broker → ∀ u ∈ net.kids v, net.kind u = .fed) (conn busy : Node → Bool) (hc : ∀ u, conn u = true)
    (now i : Nat) (b : Builder) :
    b.init net conn busy now v i =
      ({ b with missing := holders net (asks net busy v),
                map := some (now, (((net.kids v).filter (fun u => !waits net busy v u)).map (fun u => (u, Ans.doc u i now []))).map
                  (fun e => (net.kind e.1, e.2))) },
        (number 2 (asks net busy v)).map (fun p => Out.down p.2 i p.1)) := by
  unfold Builder.init
  by_cases h : net.kind v = .broker
  · simp only [h, if_pos]
    rw [broker_fold conn hc i (net.kids v) [] { b with map := some (now, []), missing := [] } [] rfl rfl]
    have h1 : waits net busy v = fun _ => true := by funext u; simp [waits, h]
    have h2 : asks net busy v = net.kids v := by unfold asks; rw [h1]; exact List.filter_eq_self.2 (fun _ _ => rfl)
    rw [h2, h1]
    simp
  · simp only [h, if_false]
    have h1 : waits net busy v = busy := by funext u; simp [waits, h]
    rw [core_fold busy now i (net.kids v) [] now [] { b with map := some (now, []), missing := [] } [] (hk h) rfl rfl rfl]
    unfold asks
    rw [h1]
    simp

end Verif.Query
