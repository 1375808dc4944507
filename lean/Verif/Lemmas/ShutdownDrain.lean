import Verif.Lemmas.ShutdownGlobal
/-! The commands run out, for C56. -/
namespace Verif.Down

variable {net : Net} {s : Sys}

/-- commands make only commands of lower rank, or use up a token -/
def rank (net : Net) (v : Node) : Cmd → Nat
  | .bye => if net.kind v = .core then 1 else 0
  | .stop => 0
  | .halt => 0
  | .ack => net.size - v
  | .spread => net.size - v
  | .tbye => net.size + 1
  | .note => net.size + 1 + v
  | .disc => 2 * net.size + 2 + v

def top (net : Net) : Nat := 3 * net.size + 3

def tokens (x : NSt) : Nat :=
  (if x.phase = .running then 1 else 0) + (if x.phase = .stopped then 0 else 1) + (if x.silent then 0 else 1)

def fan (net : Net) : Nat := 3 * net.size + 6

theorem rank_top {v : Node} (hv : v < net.size) (c : Cmd) : rank net v c < top net := by
  unfold rank top
  cases c <;> simp only <;> first | omega | (split <;> omega)

theorem kids_len (net : Net) (v : Node) : (net.kids v).length ≤ net.size := by
  unfold Net.kids
  refine Nat.le_trans (List.length_filter_le _ _) ?_
  rw [List.length_range]; exact Nat.le_refl _

/-- what a command costs -/
structure Cost (net : Net) (v : Node) (c : Cmd) (x : NSt) (o : Out) : Prop where
  len : o.2.length ≤ fan net
  less : tokens o.1 < tokens x ∨ (tokens o.1 ≤ tokens x ∧ ∀ b c', (b, c') ∈ o.2 → rank net b c' < rank net v c)

theorem hush_len (x : NSt) (v : Node) : (x.hush net v).2.length ≤ net.size + 1 := by
  unfold NSt.hush
  split
  · simp
  · rw [List.length_append, List.length_map]
    have := Nat.le_trans (List.length_filter_le x.dep (net.kids v)) (kids_len net v)
    split <;> simp <;> omega

theorem hush_tokens (x : NSt) (v : Node) : tokens (x.hush net v).1 < tokens x ∨ (x.hush net v) = (x, []) := by
  unfold NSt.hush
  split
  · exact .inr rfl
  · rename_i h
    left
    unfold tokens
    simp only [h]
    simp
  
theorem hush_tokens_le (x : NSt) (v : Node) : tokens (x.hush net v).1 ≤ tokens x := by
  rcases hush_tokens (net := net) x v with h | h
  · omega
  · rw [h]; exact Nat.le_refl _

theorem cost_less {v : Node} {c : Cmd} {x y : NSt} {l : List (Node × Cmd)} (hl : l.length ≤ fan net) (h : tokens y < tokens x) :
    Cost net v c x (y, l) := ⟨hl, .inl h⟩

theorem cost_rank {v : Node} {c : Cmd} {x y : NSt} {l : List (Node × Cmd)} (hl : l.length ≤ fan net) (h : tokens y ≤ tokens x)
    (hr : ∀ b c', (b, c') ∈ l → rank net b c' < rank net v c) : Cost net v c x (y, l) := ⟨hl, .inr ⟨h, hr⟩⟩

theorem fed_cost {x : NSt} {v : Node} {c : Cmd} (hh : c ≠ .halt) (hs : x.phase ≠ .stopped) : Cost net v c x (x.fedCmd net v c) := by
  have none : ∀ y, tokens y ≤ tokens x → Cost net v c x (y, []) := by
    intro y hy; exact cost_rank (by simp) hy (fun b c' hb => by cases hb)
  cases c with
  | halt => exact absurd rfl hh
  | bye =>
    unfold NSt.fedCmd
    simp only
    split
    · rename_i hr
      refine cost_less ?_ ?_
      · unfold fan; split <;> simp
      · unfold tokens; simp [hr]; omega
    · exact none _ (Nat.le_refl _)
  | ack => refine none _ ?_; unfold tokens; simp
  | stop => refine none _ ?_; unfold tokens; simp
  | _ => exact none _ (Nat.le_refl _)

theorem check_cost (x : NSt) (v : Node) : (x.check net v).1.2.length ≤ net.size + 2 ∧
    (tokens (x.check net v).1.1 < tokens x ∨ (x.check net v).1 = (x, [])) := by
  unfold NSt.check
  split
  · rename_i hr
    split
    · refine ⟨?_, .inl ?_⟩
      · simp only [List.length_append, List.length_singleton]
        have := hush_len (net := net) { x with phase := .terminating } v
        omega
      · simp only
        refine Nat.lt_of_le_of_lt (hush_tokens_le _ _) ?_
        unfold tokens; simp [hr]
    · exact ⟨by simp, .inr rfl⟩
  · exact ⟨by simp, .inr rfl⟩

theorem core_cost (h : net.Ok) {x : NSt} {u v : Node} {c : Cmd} (g : Good net s u v c) (hv : net.kind v = .core)
    (hs : x.phase ≠ .stopped) (hsr : c = .stop → x.phase ≠ .running) : Cost net v c x (x.coreCmd net v u c) := by
  have hm := good_member h g
  have h0 : v ≠ 0 := by intro e; subst e; rw [h.rootKind] at hv; cases hv
  have hp := h.below v h0
  have ch : Cost net v c x (x.check net v).1 := by
    obtain ⟨a, b⟩ := check_cost (net := net) x v
    refine ⟨by unfold fan; omega, b.imp id (fun e => ?_)⟩
    rw [e]; exact ⟨Nat.le_refl _, fun b c' hb => by cases hb⟩
  have kl := kids_len net v
  cases c with
  | halt => exact absurd g id
  | note => exact cost_rank (by simp) (Nat.le_refl _) (fun b c' hb => by cases hb)
  | bye =>
    refine cost_rank (by unfold fan; simp) (Nat.le_refl _) ?_
    intro b c' hb
    rw [List.mem_singleton] at hb
    cases hb
    have hu : net.kind u = .fed := by
      rcases g with g | g
      · exact g.2.1
      · rw [hv] at g; exact absurd g.2.1 (by decide)
    unfold rank; simp [hu, hv]
  | disc =>
    obtain ⟨x1, hx1⟩ : ∃ x1, x1 = { x with gone := upd x.gone u true } := ⟨_, rfl⟩
    obtain ⟨a, b⟩ := check_cost (net := net) x1 v
    have ht : tokens x1 = tokens x := by rw [hx1]; rfl
    have hu := (mem_kids.1 g.1).1
    obtain ⟨e1, he1⟩ : ∃ e : List (Node × Cmd), e = (if !(x1.check net v).2 || (decide (x.phase = .running) && !x.oper) || decide (x.phase = .terminating) then
        (net.par v, Cmd.note) ::
        (if ((decide (x.phase = .running) && !x.oper) || decide (x.phase = .terminating) || !x1.all (net.kids v)) && !net.glob v
          then [(u, Cmd.ack)] else [])
      else []) := ⟨_, rfl⟩
    have he : x.coreCmd net v u .disc = ((x1.check net v).1.1, (x1.check net v).1.2 ++ e1) := by rw [he1, hx1]; rfl
    have hlen : e1.length ≤ 2 := by
      rw [he1]; split
      · split <;> simp
      · simp
    have hrk : ∀ b c', (b, c') ∈ e1 → rank net b c' < rank net v .disc := by
      intro b c' hb
      rw [he1] at hb
      split at hb
      · rcases List.mem_cons.1 hb with hb | hb
        · cases hb; unfold rank; simp only; omega
        · split at hb
          · rw [List.mem_singleton] at hb; cases hb; unfold rank; simp only; omega
          · cases hb
      · cases hb
    rw [he]
    refine ⟨by rw [List.length_append]; unfold fan; omega, ?_⟩
    rcases b with b | b
    · exact .inl (by rw [← ht]; exact b)
    · right; rw [b]; exact ⟨by simp only; omega, hrk⟩
  | spread => exact ch
  | tbye =>
    unfold NSt.coreCmd
    simp only
    split
    · refine ⟨?_, ?_⟩
      · simp only [List.length_append, List.length_map, List.length_singleton]
        have := hush_len (net := net) { x with phase := .terminating } v
        unfold fan; omega
      · have ht : tokens { x with phase := .terminating } ≤ tokens x := by
          unfold tokens; cases hp : x.phase with
          | stopped => exact absurd hp hs
          | _ => simp
        rcases hush_tokens (net := net) { x with phase := .terminating } v with a | a
        · exact .inl (Nat.lt_of_lt_of_le a ht)
        · right
          rw [a]
          refine ⟨ht, ?_⟩
          intro b c' hb
          simp only [List.nil_append, List.mem_append, List.mem_map, List.mem_singleton] at hb
          rcases hb with ⟨k, hk, hb⟩ | hb
          · cases hb; unfold rank; simp only; omega
          · cases hb; unfold rank; simp only; omega
    · exact ch
  | ack =>
    unfold NSt.coreCmd
    simp only
    split
    · refine cost_rank ?_ (Nat.le_refl _) ?_
      · simp only [List.length_append, List.length_map, List.length_singleton]; unfold fan; omega
      · intro b c' hb
        simp only [List.mem_append, List.mem_map, List.mem_singleton] at hb
        rcases hb with ⟨k, hk, hb⟩ | hb
        · cases hb
          obtain ⟨k1, k2, k3⟩ := mem_kids.1 hk
          have := h.below b k2
          unfold rank; simp only; omega
        · cases hb; unfold rank; simp only; omega
    · exact cost_rank (by simp) (Nat.le_refl _) (fun b c' hb => by cases hb)
  | stop =>
    unfold NSt.coreCmd
    simp only
    rw [if_neg (hsr rfl)]
    refine cost_less (by simp) ?_
    have := hsr rfl
    unfold tokens; simp [this, hs]

theorem broker_cost (h : net.Ok) {x : NSt} {u v : Node} {c : Cmd} (g : Good net s u v c)
    (hs : x.phase ≠ .stopped) (hsr : c = .stop → x.allLocal (net.kids v) = true) : Cost net v c x (x.brokerCmd net v u c) := by
  have hm := good_member h g
  have kl := kids_len net v
  have none : ∀ y, tokens y ≤ tokens x → Cost net v c x (y, []) := by
    intro y hy; exact cost_rank (by simp) hy (fun b c' hb => by cases hb)
  have bl : ∀ y : NSt, (y.broadcast net v .spread).length ≤ net.size := by
    intro y; unfold NSt.broadcast; rw [List.length_map]
    exact Nat.le_trans (List.length_filter_le _ _) kl
  have cl : ∀ y : NSt, (y.confirm net v).2.length ≤ net.size := by
    intro y; unfold NSt.confirm; simp only [List.length_map]
    exact Nat.le_trans (List.length_filter_le _ _) kl
  have kr : ∀ {b}, b ∈ net.kids v → net.size - b < net.size - v := by
    intro b hb
    obtain ⟨k1, k2, k3⟩ := mem_kids.1 hb
    have := h.below b k2
    omega
  cases c with
  | halt => exact absurd g id
  | bye => exact none _ (Nat.le_refl _)
  | disc =>
    show Cost net v .disc x (x.discBelow net v u)
    obtain ⟨d, hd⟩ : ∃ d, d = x.drop net v u := ⟨_, rfl⟩
    have ht : tokens d.1 = tokens x := by rw [hd]; rfl
    have hu := (mem_kids.1 g.1).1
    have dl : d.2.length ≤ net.size := by
      rw [hd]; unfold NSt.drop; simp only
      split
      · exact bl _
      · simp
    have hup : ∀ b c', (b, c') ∈ (if (decide (v ≠ 0) && !x.oper) = true then [(net.par v, Cmd.note)] else []) →
        rank net b c' < rank net v .disc := by
      intro b c' hb
      split at hb
      · rename_i hc
        have h0 : v ≠ 0 := by intro e; simp [e] at hc
        have := h.below v h0
        rw [List.mem_singleton] at hb; cases hb; unfold rank; simp only; omega
      · cases hb
    have hupl : (if (decide (v ≠ 0) && !x.oper) = true then [(net.par v, Cmd.note)] else []).length ≤ 1 := by split <;> simp
    have dr : ∀ b c', (b, c') ∈ d.2 → rank net b c' < rank net v .disc := by
      intro b c' hb
      rw [hd] at hb
      obtain ⟨rfl, hk⟩ := drop_out hb
      have := kr hk
      unfold rank; simp only; omega
    have hr : ∀ b c', (b, c') ∈ (d.1.hush net v).2 → rank net b c' < rank net v .disc := by
      intro b c' hb
      have := hush_only _ _ hb
      subst this; unfold rank; simp only; omega
    have hle := hush_tokens_le (net := net) d.1 v
    have hlen := hush_len (net := net) d.1 v
    unfold NSt.discBelow
    simp only
    rw [← hd]
    split
    · split
      · rename_i h0
        have hp := h.below v h0
        refine cost_rank ?_ (by omega) ?_
        · simp only [List.length_append, List.length_singleton]; unfold fan; omega
        · intro b c' hb
          simp only [List.mem_append, List.mem_singleton] at hb
          rcases hb with (hb | hb) | hb
          · exact dr b c' hb
          · exact hr b c' hb
          · cases hb; unfold rank; simp only; omega
      · split
        · refine cost_rank ?_ (show tokens ((d.1.hush net v).1) ≤ _ by omega) ?_
          · simp only [List.length_append, List.length_singleton]
            have := cl (d.1.hush net v).1
            unfold fan; omega
          · intro b c' hb
            simp only [List.mem_append, List.mem_singleton] at hb
            rcases hb with ((hb | hb) | hb) | hb
            · exact dr b c' hb
            · exact hr b c' hb
            · obtain ⟨rfl, hk⟩ := confirm_out hb
              unfold rank; simp only; omega
            · cases hb; unfold rank; simp only; omega
        · refine cost_rank ?_ (show tokens ((d.1.hush net v).1) ≤ _ by omega) ?_
          · simp only [List.length_append, List.length_cons, List.length_nil]; unfold fan; omega
          · intro b c' hb
            simp only [List.mem_append, List.mem_cons, List.not_mem_nil, or_false] at hb
            rcases hb with (hb | hb) | hb | hb
            · exact dr b c' hb
            · exact hr b c' hb
            · cases hb; unfold rank; simp only; omega
            · cases hb; unfold rank; simp only; omega
    · split
      · refine cost_rank ?_ (by omega) ?_
        · rw [List.length_append]; unfold fan; omega
        · intro b c' hb
          rcases List.mem_append.1 hb with hb | hb
          · exact dr b c' hb
          · exact hup b c' hb
      · refine cost_rank ?_ (show tokens d.1 ≤ _ by omega) ?_
        · simp only [List.length_append, List.length_singleton]; unfold fan; omega
        · intro b c' hb
          simp only [List.mem_append, List.mem_singleton] at hb
          rcases hb with (hb | hb) | hb
          · exact dr b c' hb
          · cases hb; unfold rank; simp only; omega
          · exact hup b c' hb
  | tbye =>
    unfold NSt.brokerCmd
    simp only
    split
    · exact none _ (Nat.le_refl _)
    · exact none _ (Nat.le_refl _)
  | ack =>
    unfold NSt.brokerCmd
    simp only
    split
    · refine cost_rank ?_ (Nat.le_refl _) ?_
      · simp only [List.length_append, List.length_singleton]
        have := cl x
        unfold fan; omega
      · intro b c' hb
        simp only [List.mem_append, List.mem_singleton] at hb
        rcases hb with hb | hb
        · obtain ⟨rfl, hk⟩ := confirm_out hb
          exact kr hk
        · cases hb; unfold rank; simp only; omega
    · exact none _ (Nat.le_refl _)
  | note =>
    unfold NSt.brokerCmd
    simp only
    split
    · rename_i h0
      have := h.below v h0
      refine cost_rank (by unfold fan; simp) (Nat.le_refl _) ?_
      intro b c' hb
      rw [List.mem_singleton] at hb; cases hb; unfold rank; simp only; omega
    · refine cost_rank ?_ (Nat.le_refl _) ?_
      · split
        · simp
        · have := bl x; unfold fan; omega
      · intro b c' hb
        split at hb
        · cases hb
        · obtain ⟨rfl, hk⟩ := broadcast_out hb
          unfold rank; simp only; omega
  | spread =>
    refine cost_rank (by have := bl x; unfold fan; omega) (Nat.le_refl _) ?_
    intro b c' hb
    obtain ⟨rfl, hk⟩ := broadcast_out hb
    exact kr hk
  | stop =>
    unfold NSt.brokerCmd
    simp only
    rw [if_pos (hsr rfl)]
    refine cost_less (by simp) ?_
    unfold tokens
    cases hp : x.phase with
    | stopped => exact absurd hp hs
    | _ => simp

/-! ### Sums -/

def base (net : Net) : Nat := fan net + 1

def wt (net : Net) (v : Node) (l : List Cmd) : Nat := (l.map (fun c => base net ^ rank net v c)).sum
def wtOut (net : Net) (l : List (Node × Cmd)) : Nat := (l.map (fun x => base net ^ rank net x.1 x.2)).sum

theorem sum_range_upd (f : Nat → Nat) (i : Nat) (y : Nat) : ∀ n, i < n →
    ((List.range n).map (upd f i y)).sum + f i = ((List.range n).map f).sum + y := by
  intro n
  have low : ∀ m, m ≤ i → ((List.range m).map (upd f i y)).sum = ((List.range m).map f).sum := by
    intro m
    induction m with
    | zero => intro _; rfl
    | succ m ih =>
      intro hm
      rw [List.range_succ, List.map_append, List.map_append, List.sum_append, List.sum_append, ih (by omega)]
      simp only [List.map_cons, List.map_nil]
      rw [upd_ne _ _ (by omega)]
  induction n with
  | zero => intro h; omega
  | succ n ih =>
    intro hi
    rw [List.range_succ, List.map_append, List.map_append, List.sum_append, List.sum_append]
    simp only [List.map_cons, List.map_nil, List.sum_cons, List.sum_nil]
    by_cases e : i = n
    · subst e
      rw [low i (Nat.le_refl _), upd_same]; omega
    · have := ih (by omega)
      rw [upd_ne _ _ (fun e' => e e'.symm)]; omega

def load (net : Net) (s : Sys) : Nat :=
  ((List.range net.size).map (fun u => ((List.range net.size).map (fun v => wt net v (s.link u v))).sum)).sum

def purse (net : Net) (s : Sys) : Nat := ((List.range net.size).map (fun v => tokens (s.node v))).sum

theorem load_upd (s : Sys) {u v : Node} (hu : u < net.size) (hv : v < net.size) (node : Node → NSt) (l : List Cmd) :
    load net { node := node, link := upd s.link u (upd (s.link u) v l) } + wt net v (s.link u v) = load net s + wt net v l := by
  have h1 := sum_range_upd (fun v => wt net v (s.link u v)) v (wt net v l) net.size hv
  have e1 : (upd (fun v => wt net v (s.link u v)) v (wt net v l)) = fun w => wt net w (upd (s.link u) v l w) := by
    funext w
    by_cases e : w = v
    · subst e; rw [upd_same, upd_same]
    · rw [upd_ne _ _ e, upd_ne _ _ e]
  rw [e1] at h1
  have h2 := sum_range_upd (fun u => ((List.range net.size).map (fun v => wt net v (s.link u v))).sum) u
    (((List.range net.size).map (fun w => wt net w (upd (s.link u) v l w))).sum) net.size hu
  have e2 : (upd (fun u => ((List.range net.size).map (fun v => wt net v (s.link u v))).sum) u
      (((List.range net.size).map (fun w => wt net w (upd (s.link u) v l w))).sum)) =
      fun a => ((List.range net.size).map (fun w => wt net w (upd s.link u (upd (s.link u) v l) a w))).sum := by
    funext a
    by_cases e : a = u
    · subst e; rw [upd_same]; simp only [upd_same]
    · rw [upd_ne _ _ e]; simp only [upd_ne _ _ e]
  rw [e2] at h2
  unfold load
  simp only at h1 h2 ⊢
  omega

theorem load_put (s : Sys) {u : Node} {x : Node × Cmd} (hu : u < net.size) (hx : x.1 < net.size) :
    load net (s.put u x) = load net s + base net ^ rank net x.1 x.2 := by
  have := load_upd s hu hx s.node (s.link u x.1 ++ [x.2])
  unfold Sys.put
  have e : wt net x.1 (s.link u x.1 ++ [x.2]) = wt net x.1 (s.link u x.1) + base net ^ rank net x.1 x.2 := by
    unfold wt; simp
  rw [e] at this
  omega

theorem load_puts {u : Node} (hu : u < net.size) : ∀ (xs : List (Node × Cmd)) (s : Sys), (∀ x, x ∈ xs → x.1 < net.size) →
    load net (s.puts u xs) = load net s + wtOut net xs
  | [], s, _ => rfl
  | x :: xs, s, h => by
    show load net ((s.put u x).puts u xs) = _
    rw [load_puts hu xs _ (fun y hy => h y (List.mem_cons_of_mem _ hy)), load_put s hu (h x (List.mem_cons_self ..))]
    unfold wtOut
    simp only [List.map_cons, List.sum_cons]
    omega

theorem wt_out_le {r : Nat} : ∀ (l : List (Node × Cmd)), (∀ b c, (b, c) ∈ l → rank net b c < r + 1) →
    wtOut net l ≤ l.length * base net ^ r
  | [], _ => by simp [wtOut]
  | x :: l, h => by
    have ih := wt_out_le l (fun b c hb => h b c (List.mem_cons_of_mem _ hb))
    have hx := h x.1 x.2 (List.mem_cons_self ..)
    have hp : base net ^ rank net x.1 x.2 ≤ base net ^ r := Nat.pow_le_pow_right (by unfold base; omega) (by omega)
    unfold wtOut at ih ⊢
    simp only [List.map_cons, List.sum_cons, List.length_cons, Nat.add_mul, Nat.one_mul]
    omega

theorem wt_out_lt {r : Nat} {l : List (Node × Cmd)} (hl : l.length ≤ fan net) (h : ∀ b c, (b, c) ∈ l → rank net b c < r) :
    wtOut net l < base net ^ r := by
  cases r with
  | zero =>
    cases l with
    | nil => simp [wtOut]
    | cons x l => exact absurd (h x.1 x.2 (List.mem_cons_self ..)) (by omega)
  | succ r =>
    have h1 := wt_out_le l h
    have h2 : l.length * base net ^ r ≤ fan net * base net ^ r := Nat.mul_le_mul_right _ hl
    have h3 : 0 < base net ^ r := Nat.pow_pos (by unfold base; omega)
    have h4 : base net ^ (r + 1) = fan net * base net ^ r + base net ^ r := by
      rw [Nat.pow_succ, Nat.mul_comm]; show (fan net + 1) * _ = _; rw [Nat.add_mul, Nat.one_mul]
    omega

def energy (net : Net) (s : Sys) : Nat := load net s + purse net s * base net ^ top net

theorem purse_upd (s : Sys) {v : Node} (hv : v < net.size) (x : NSt) (link : Node → Node → List Cmd) :
    purse net { node := upd s.node v x, link := link } + tokens (s.node v) = purse net s + tokens x := by
  have h1 := sum_range_upd (fun v => tokens (s.node v)) v (tokens x) net.size hv
  have e1 : (upd (fun v => tokens (s.node v)) v (tokens x)) = fun w => tokens (upd s.node v x w) := by
    funext w
    by_cases e : w = v
    · subst e; rw [upd_same, upd_same]
    · rw [upd_ne _ _ e, upd_ne _ _ e]
  rw [e1] at h1
  exact h1

theorem good_from (h : net.Ok) {u v : Node} {c : Cmd} (g : Good net s u v c) : u < net.size := by
  have par : ∀ {k n : Node}, k ∈ net.kids n → n < net.size := by
    intro k n hk
    obtain ⟨a, b, e⟩ := mem_kids.1 hk
    have := h.below k b; omega
  have kid : ∀ {k n : Node}, k ∈ net.kids n → k < net.size := fun hk => (mem_kids.1 hk).1
  cases c with
  | bye => exact g.elim (fun g => kid g.1) (fun g => par g.1)
  | disc => exact kid g.1
  | tbye => exact g.elim kid (fun g => par g.1)
  | ack => exact par g.1
  | note => exact kid g
  | spread => exact par g
  | halt => exact absurd g id
  | stop => have := g.1; subst this; exact g.2.2.1

/-- every command that is taken uses something up -/
theorem energy_take (h : net.Ok) (I : InvA net s) {u v : Node} (hl : s.link u v ≠ []) :
    energy net (s.step net (.take u v)) < energy net s := by
  cases hc : s.link u v with
  | nil => exact absurd hc hl
  | cons c cs =>
  have I' := I.onTake h u v
  rw [take_cons hc] at I' ⊢
  have g : Good net s u v c := I.links u v c (by rw [hc]; exact List.mem_cons_self ..)
  have hm := good_member h g
  have hu := good_from h g
  have hh : c ≠ .halt := by intro e; rw [e] at g; exact g
  obtain ⟨o, ho⟩ : ∃ o, o = (s.node v).onCmd net v u c := ⟨_, rfl⟩
  rw [← ho] at I' ⊢
  have C : Cost net v c (s.node v) o := by
    rw [ho]
    unfold NSt.onCmd
    split
    · exact cost_rank (by simp) (Nat.le_refl _) (fun b c' hb => by cases hb)
    · rename_i hs
      cases hk : net.kind v with
      | fed => exact fed_cost hh hs
      | core =>
        refine core_cost h g hk hs ?_
        intro e; subst e; have := g.2.2.2; unfold Done at this; rw [hk] at this; exact this
      | broker =>
        refine broker_cost h g hs ?_
        intro e; subst e; have := g.2.2.2; unfold Done at this; rw [hk] at this; exact this
  have tg : ∀ x, x ∈ o.2 → x.1 < net.size := by
    intro x hx
    exact good_member h (I'.links v x.1 x.2 (after_out hx))
  have e1 : load net (after s u v cs o) + base net ^ rank net v c = load net s + wtOut net o.2 := by
    unfold after
    rw [load_puts hm _ _ tg]
    have := load_upd s hu hm (upd s.node v o.1) cs
    rw [hc] at this
    have e : wt net v (c :: cs) = base net ^ rank net v c + wt net v cs := by unfold wt; simp
    rw [e] at this
    omega
  have e2 : purse net (after s u v cs o) + tokens (s.node v) = purse net s + tokens o.1 := by
    have : purse net (after s u v cs o) = purse net { node := upd s.node v o.1, link := s.link } := by
      unfold purse; rw [after_node]
    rw [this]; exact purse_upd s hm o.1 s.link
  have hpos : 0 < base net ^ rank net v c := Nat.pow_pos (by unfold base; omega)
  unfold energy
  rcases C.less with a | ⟨a, b⟩
  · have h1 := wt_out_lt (r := top net) C.len (fun b c' hb => rank_top (tg (b, c') hb) c')
    have h2 : purse net (after s u v cs o) + 1 ≤ purse net s := by omega
    have h3 := Nat.mul_le_mul_right (base net ^ top net) h2
    rw [Nat.add_mul, Nat.one_mul] at h3
    omega
  · have h1 := wt_out_lt C.len b
    have h2 : purse net (after s u v cs o) ≤ purse net s := by omega
    have h3 := Nat.mul_le_mul_right (base net ^ top net) h2
    omega

end Verif.Down
