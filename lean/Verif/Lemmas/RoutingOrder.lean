import Verif.Lemmas.RoutingDrain
import Verif.Lemmas.RoutingPath
/-! What arrives arrives in order, for C55. -/
namespace Verif.Routes

variable {net : Net} {s : Sys}

/-- the contents of a packet from `n` for `d` with priority `p` -/
def bodyOf (n : Node) (d : Id) (p : Bool) : Cmd → Option Nat
  | .pkt n' d' p' b => if n' = n ∧ d' = d ∧ p' = p then some b else none
  | _ => none

def onLink (n : Node) (d : Id) (p : Bool) (s : Sys) (e : Node × Node) : List Nat :=
  (s.link e.1 e.2).filterMap (fun q => bodyOf n d p q.cmd)

/-- the contents of the links of a way, the oldest first -/
def onWay (f : Node × Node → List Nat) : List (Node × Node) → List Nat
  | [] => []
  | e :: l => onWay f l ++ f e

theorem onWay_append (f : Node × Node → List Nat) (a b : List (Node × Node)) :
    onWay f (a ++ b) = onWay f b ++ onWay f a := by
  induction a with
  | nil => simp [onWay]
  | cons e a ih => simp only [List.cons_append, onWay, ih, List.append_assoc]

theorem onWay_congr {f f' : Node × Node → List Nat} {l : List (Node × Node)} (h : ∀ e, e ∈ l → f' e = f e) :
    onWay f' l = onWay f l := by
  induction l with
  | nil => rfl
  | cons e l ih =>
    simp only [onWay]
    rw [ih (fun x hx => h x (List.mem_cons_of_mem _ hx)), h e (List.mem_cons_self ..)]

theorem onWay_nil {f : Node × Node → List Nat} {l : List (Node × Node)} (h : ∀ e, f e = []) : onWay f l = [] := by
  induction l with
  | nil => rfl
  | cons e l ih => simp only [onWay]; rw [ih, h e]; rfl

theorem bodyOf_none {n n' : Node} {d d' : Id} {p p' : Bool} {b : Nat} (h : ¬ (n' = n ∧ d' = d ∧ p' = p)) :
    bodyOf n d p (.pkt n' d' p' b) = none := if_neg h

theorem bodyOf_quiet {n : Node} {d : Id} {p : Bool} {c : Cmd} (h : isPkt c = false) : bodyOf n d p c = none := by
  cases c with
  | pkt => cases h
  | reg => rfl
  | ack => rfl

theorem onLink_apply (n : Node) (d : Id) (p : Bool) (s : Sys) (v : Node) (o : Out × Bool) (a b : Node) :
    onLink n d p (s.apply v o) (a, b) = onLink n d p s (a, b) ++
      (if a = v then (o.1.2.1.filter (fun c => c.1 == b)).filterMap (fun c => bodyOf n d p c.2) else []) := by
  unfold onLink
  rw [apply_after]
  unfold after
  simp only
  rw [puts_link]
  by_cases ha : a = v
  · rw [if_pos ha, if_pos ha, List.filterMap_append]
    congr 1
    unfold outTo
    rw [List.filterMap_map]
    rfl
  · rw [if_neg ha, if_neg ha, List.append_nil]; rfl

/-- the flow of one kind of packets -/
def Flow (net : Net) (s : Sys) (n : Node) (d : Id) (p : Bool) (o : Node) (l : List (Node × Node)) : Prop :=
  Owner net s d o ∧ (∀ a, Below net a n → Below net a o → Has s a d) ∧ Path net o n l ∧
  sentTo s n d p = gotFrom s n d p ++ onWay (onLink n d p s) l ∧
  ∀ u v, onLink n d p s (u, v) ≠ [] → (u, v) ∈ l

def Ord (net : Net) (s : Sys) : Prop := ∀ n d p,
  (sentTo s n d p = [] ∧ gotFrom s n d p = [] ∧ ∀ u v, onLink n d p s (u, v) = []) ∨
  ∃ o l, Flow net s n d p o l

theorem Ord.same {s' : Sys} (O : Ord net s) (E : Ext s s') (hs : s'.sent = s.sent) (hg : s'.got = s.got)
    (hl : ∀ n d p u v, onLink n d p s' (u, v) = onLink n d p s (u, v)) : Ord net s' := by
  intro n d p
  have h1 : sentTo s' n d p = sentTo s n d p := by unfold sentTo; rw [hs]
  have h2 : gotFrom s' n d p = gotFrom s n d p := by unfold gotFrom; rw [hg]
  have h3 : onLink n d p s' = onLink n d p s := by funext e; exact hl n d p e.1 e.2
  rcases O n d p with a | ⟨o, l, a, b, c, e, f⟩
  · left; rw [h1, h2, h3]; exact a
  · right
    refine ⟨o, l, E.owner a, fun x hx hx' => E.has (b x hx hx'), c, ?_, ?_⟩
    · rw [h1, h2, h3]; exact e
    · rw [h3]; exact f

theorem onLink_put (n : Node) (d : Id) (p : Bool) (s : Sys) (a b : Node) {c : Cmd} (hc : isPkt c = false) (u v : Node) :
    onLink n d p (s.put a b c) (u, v) = onLink n d p s (u, v) := by
  unfold onLink
  simp only
  rw [put_link]
  split
  · rw [List.filterMap_append]
    simp [List.filterMap_cons, bodyOf_quiet hc]
  · rfl

/-- the direction a packet on its way to `o` takes -/
theorem Inv.direction (h : net.Ok) (K : Inv net s) {v n o : Node} {d : Id} {pr : Bool} {b : Nat} (x : Owner net s d o)
    (hh : Below net v o → Has s v d) :
    (v = o ∧ ∃ f, (s.node v).onPkt v (net.par v) (net.core v) n d pr b = (s.node v, [], [⟨v, f, n, d, pr, b⟩])) ∨
    ∃ c, Nx net o v c ∧ (s.node v).onPkt v (net.par v) (net.core v) n d pr b = (s.node v, [(c, .pkt n d pr b)], []) := by
  rcases K.packet h (v := v) (n := n) (pr := pr) (b := b) x with ⟨f, hf, e⟩ | ⟨c, hhas, ht, hc, e⟩ | ⟨hno, hv, e⟩
  · exact .inl ⟨K.one.ownerInj h (K.one.holdsOwner h hf) x, f, e⟩
  · exact .inr ⟨c, .inl ⟨K.one.hasBelow h hhas x, hc, (K.one.tabBelow h x ht).2⟩, e⟩
  · exact .inr ⟨_, .inr ⟨fun hb => hno (hh hb), hv, rfl⟩, e⟩

theorem Ord.send (h : net.Ok) (K : Inv net s) (O : Ord net s) {n : Node} {d : Id} {pr : Bool} {b : Nat}
    (hk : d ∈ s.know n) : Ord net (s.step net (.send n d pr b)) := by
  obtain ⟨o, x, y⟩ := K.two.know n d hk
  have hd := K.one.ownerBig x
  obtain ⟨s0, hs0⟩ : ∃ s0 : Sys, s0 = { s with sent := s.sent ++ [⟨n, d, pr, b⟩] } := ⟨_, rfl⟩
  have e : s.step net (.send n d pr b) = s0.apply n ((s.node n).onPkt n (net.par n) (net.core n) n d pr b, false) := by
    unfold Sys.step; simp only
    rw [if_neg (by unfold parentId; exact hd), hs0]
  rw [e]
  have hn0 : s0.node = s.node := by rw [hs0]
  have E : Ext s (s0.apply n ((s.node n).onPkt n (net.par n) (net.core n) n d pr b, false)) := by
    refine Ext.ofNode ?_
    rw [apply_node, onPkt_node, hn0, upd_self]
  have hsent : s0.sent = s.sent ++ [⟨n, d, pr, b⟩] := by rw [hs0]
  have hgot : s0.got = s.got := by rw [hs0]
  have hlk : ∀ n' d' p', onLink n' d' p' s0 = onLink n' d' p' s := by intro _ _ _; rw [hs0]; rfl
  have dir := K.direction h (v := n) (n := n) (pr := pr) (b := b) x (fun hb => y n .refl hb)
  intro n' d' p'
  by_cases hsame : n' = n ∧ d' = d ∧ p' = pr
  · obtain ⟨rfl, rfl, rfl⟩ := hsame
    right
    -- the flow before
    have fl : ∃ l, Flow net s n' d' p' o l := by
      rcases O n' d' p' with ⟨a1, a2, a3⟩ | ⟨o', l, fl⟩
      · obtain ⟨l, hl⟩ := Path.exists h o n'
        refine ⟨l, x, y, hl, ?_, fun u v hne => absurd (a3 u v) hne⟩
        rw [a1, a2, onWay_nil (fun e => a3 e.1 e.2)]; rfl
      · have := K.one.ownerInj h fl.1 x
        subst this
        exact ⟨l, fl⟩
    obtain ⟨l, _, _, hpath, heq, hon⟩ := fl
    refine ⟨o, l, E.owner x, fun a h1 h2 => E.has (y a h1 h2), hpath, ?_, ?_⟩
    · have es : sentTo (s0.apply n' ((s.node n').onPkt n' (net.par n') (net.core n') n' d' p' b, false)) n' d' p' =
          sentTo s n' d' p' ++ [b] := by
        unfold sentTo
        rw [apply_sent, hsent, List.filter_append, List.map_append]
        simp
      rw [es, heq]
      have eg : gotFrom (s0.apply n' ((s.node n').onPkt n' (net.par n') (net.core n') n' d' p' b, false)) n' d' p' =
          gotFrom s n' d' p' ++ (((s.node n').onPkt n' (net.par n') (net.core n') n' d' p' b).2.2.filter
            (fun x => x.src == n' && x.dest == d' && x.prio == p')).map (·.body) := by
        unfold gotFrom
        rw [apply_got, hgot, List.filter_append, List.map_append]
      rw [eg]
      rcases dir with ⟨hv, f, e⟩ | ⟨c, nx, e⟩
      · subst hv
        have := hpath.inj h .nil
        subst this
        rw [e]
        simp [onWay]
      · cases hpath with
        | nil => exact absurd rfl (nx.ne h)
        | @cons _ b' l' nx' hp' =>
          have := nx.inj h nx'
          subst this
          have hfr := (Path.cons nx' hp').fresh h
          simp only [onWay]
          have h1 : onWay (onLink n' d' p' (s0.apply n' ((s.node n').onPkt n' (net.par n') (net.core n') n' d' p' b, false))) l' =
              onWay (onLink n' d' p' s) l' := by
            refine onWay_congr fun q hq => ?_
            obtain ⟨q1, q2⟩ := q
            rw [onLink_apply, if_neg (fun eq => hfr q2 (by rw [← eq]; exact hq)), List.append_nil, hlk]
          rw [h1, onLink_apply, if_pos rfl, hlk, e]
          simp [bodyOf]
    · intro u v hne
      rw [onLink_apply, hlk] at hne
      by_cases hun : u = n'
      · subst hun
        rw [if_pos rfl] at hne
        rcases dir with ⟨hv, f, e⟩ | ⟨c, nx, e⟩
        · rw [e] at hne
          simp at hne
          exact hon u v (by simpa using hne)
        · cases hpath with
          | nil => exact absurd rfl (nx.ne h)
          | @cons _ b' l' nx' hp' =>
            have := nx.inj h nx'
            subst this
            by_cases hvc : v = c
            · subst hvc; exact List.mem_cons_self ..
            · rw [e] at hne
              have : (c == v) = false := by simpa using fun e => hvc e.symm
              simp [this] at hne
              exact hon u v (by simpa using hne)
      · rw [if_neg hun, List.append_nil] at hne
        exact hon u v hne
  · -- another kind of packets
    have hb : bodyOf n' d' p' (.pkt n d pr b) = none := by
      exact bodyOf_none (fun hh => hsame ⟨hh.1.symm, hh.2.1.symm, hh.2.2.symm⟩)
    have h1 : sentTo (s0.apply n ((s.node n).onPkt n (net.par n) (net.core n) n d pr b, false)) n' d' p' =
        sentTo s n' d' p' := by
      unfold sentTo
      rw [apply_sent, hsent, List.filter_append, List.map_append]
      have : ([⟨n, d, pr, b⟩] : List Sent).filter (fun x => x.node == n' && x.dest == d' && x.prio == p') = [] := by
        rw [List.filter_eq_nil_iff]
        intro q hq
        rw [List.mem_singleton] at hq; subst hq
        simp only [Bool.and_eq_true, beq_iff_eq]
        intro hh; exact hsame ⟨hh.1.1.symm, hh.1.2.symm, hh.2.symm⟩
      rw [this]; simp
    have h2 : gotFrom (s0.apply n ((s.node n).onPkt n (net.par n) (net.core n) n d pr b, false)) n' d' p' =
        gotFrom s n' d' p' := by
      unfold gotFrom
      rw [apply_got, hgot, List.filter_append, List.map_append]
      have : ((s.node n).onPkt n (net.par n) (net.core n) n d pr b).2.2.filter
          (fun x => x.src == n' && x.dest == d' && x.prio == p') = [] := by
        rw [List.filter_eq_nil_iff]
        intro q hq
        rcases dir with ⟨_, f, e⟩ | ⟨c, _, e⟩
        · rw [e, List.mem_singleton] at hq; subst hq
          simp only [Bool.and_eq_true, beq_iff_eq]
          intro hh; exact hsame ⟨hh.1.1.symm, hh.1.2.symm, hh.2.symm⟩
        · rw [e] at hq; cases hq
      rw [this]; simp
    have h3 : onLink n' d' p' (s0.apply n ((s.node n).onPkt n (net.par n) (net.core n) n d pr b, false)) =
        onLink n' d' p' s := by
      funext q
      obtain ⟨q1, q2⟩ := q
      rw [onLink_apply, hlk]
      by_cases hq : q1 = n
      · rw [if_pos hq]
        rcases dir with ⟨_, f, e⟩ | ⟨c, _, e⟩
        · rw [e]; simp
        · rw [e]
          by_cases hc : (c == q2) = true
          · simp [hc, hb]
          · simp [hc]
      · rw [if_neg hq, List.append_nil]
    rcases O n' d' p' with a | ⟨o', l, a, b, c, e, f⟩
    · left; rw [h1, h2, h3]; exact a
    · right
      refine ⟨o', l, E.owner a, fun z hz hz' => E.has (b z hz hz'), c, ?_, ?_⟩
      · rw [h1, h2, h3]; exact e
      · rw [h3]; exact f

theorem Ord.packet (h : net.Ok) (K : Inv net s) (O : Ord net s) {u v : Node} {first : Bool} {pre post : List Parcel}
    {p : Parcel} (hp : pick first (s.link u v) = some (pre, p, post)) {n : Node} {d : Id} {pr : Bool} {b : Nat}
    (hc : p.cmd = .pkt n d pr b) {s0 : Sys} (hn0 : s0.node = s.node)
    (hl0 : s0.link = upd s.link u (upd (s.link u) v (pre ++ post))) (hgot : s0.got = s.got) (hsent : s0.sent = s.sent) :
    Ord net (s0.apply v ((s.node v).onPkt v (net.par v) (net.core v) n d pr b, false)) := by
  obtain ⟨hl, hpre, hf1, hf2⟩ := pick_split hp
  have hm : p ∈ s.link u v := by rw [hl]; exact List.mem_append_right _ (List.mem_cons_self ..)
  have E : Ext s (s0.apply v ((s.node v).onPkt v (net.par v) (net.core v) n d pr b, false)) := by
    refine Ext.ofNode ?_
    rw [apply_node, onPkt_node, hn0, upd_self]
  -- the links after the removal
  have hother : ∀ n' d' p' a c, ¬ (a = u ∧ c = v) → onLink n' d' p' s0 (a, c) = onLink n' d' p' s (a, c) := by
    intro n' d' p' a c hh
    unfold onLink
    simp only
    rw [hl0]
    by_cases ha : a = u
    · subst ha; rw [upd_same, upd_ne _ _ (fun e => hh ⟨rfl, e⟩)]
    · rw [upd_ne _ _ ha]
  have hpost : onLink n d pr s0 (u, v) = post.filterMap (fun q => bodyOf n d pr q.cmd) ∧
      onLink n d pr s (u, v) = b :: post.filterMap (fun q => bodyOf n d pr q.cmd) := by
    have hp0 : pre.filterMap (fun q => bodyOf n d pr q.cmd) = [] := by
      rw [List.filterMap_eq_nil_iff]
      intro q hq
      have hqp := hpre q hq
      cases hcmd : q.cmd with
      | reg => rfl
      | ack => rfl
      | pkt n2 d2 p2 b2 =>
        rw [hcmd] at hqp
        have hqp : p2 = false := hqp
        refine bodyOf_none ?_
        intro hh
        have hpr : pr = false := hh.2.2 ▸ hqp
        cases hfi : first with
        | true => have := hf2 hfi; rw [hc] at this; have : pr = true := this; rw [hpr] at this; cases this
        | false => rw [hf1 hfi] at hq; cases hq
    unfold onLink
    simp only
    rw [hl0, upd_same, upd_same, hl, List.filterMap_append, List.filterMap_append, hp0, List.filterMap_cons, hc]
    simp [bodyOf]
  intro n' d' p'
  by_cases hsame : n' = n ∧ d' = d ∧ p' = pr
  · obtain ⟨rfl, rfl, rfl⟩ := hsame
    right
    rcases O n' d' p' with ⟨_, _, a3⟩ | ⟨o, l, x, y, hpath, heq, hon⟩
    · have := a3 u v; rw [hpost.2] at this; cases this
    · have hin := hon u v (by rw [hpost.2]; simp)
      obtain ⟨l1, l2, el⟩ := List.append_of_mem hin
      obtain ⟨nxuv, hp2, hp2'⟩ := hpath.suffix el
      obtain ⟨ot1, ot2⟩ := hpath.others h el
      have hhas : Below net v o → Has s v d' := by
        intro hb
        rcases nxuv with ⟨_, n2, _⟩ | ⟨n1, n2, n3⟩
        · exact K.below h hp hc n2
        · refine y v ?_ hb
          have := hpath.upper hin n1
          subst n3
          exact this.par n2
      have dir := K.direction h (v := v) (n := n') (pr := p') (b := b) x hhas
      have hvu : v ≠ u := by
        intro e
        rcases K.one.good u v p hm with g
        rw [hc] at g
        rcases g.1 with g | g
        · exact g.ne h e.symm
        · exact g.ne h e
      refine ⟨o, l, E.owner x, fun a h1 h2 => E.has (y a h1 h2), hpath, ?_, ?_⟩
      · have es : sentTo (s0.apply v ((s.node v).onPkt v (net.par v) (net.core v) n' d' p' b, false)) n' d' p' =
            sentTo s n' d' p' := by
          unfold sentTo; rw [apply_sent, hsent]
        have eg : gotFrom (s0.apply v ((s.node v).onPkt v (net.par v) (net.core v) n' d' p' b, false)) n' d' p' =
            gotFrom s n' d' p' ++ (((s.node v).onPkt v (net.par v) (net.core v) n' d' p' b).2.2.filter
              (fun x => x.src == n' && x.dest == d' && x.prio == p')).map (·.body) := by
          unfold gotFrom
          rw [apply_got, hgot, List.filter_append, List.map_append]
        rw [es, eg, heq, el, onWay_append, onWay_append]
        simp only [onWay]
        rw [hpost.2]
        have atuv : onLink n' d' p' (s0.apply v ((s.node v).onPkt v (net.par v) (net.core v) n' d' p' b, false)) (u, v) =
            post.filterMap (fun q => bodyOf n' d' p' q.cmd) := by
          rw [onLink_apply, if_neg (fun e => hvu e.symm), List.append_nil, hpost.1]
        rw [atuv]
        -- edges of the way which start neither at `u` nor at `v` are as before
        have keep : ∀ q : Node × Node, q.1 ≠ u → q.1 ≠ v →
            onLink n' d' p' (s0.apply v ((s.node v).onPkt v (net.par v) (net.core v) n' d' p' b, false)) q =
            onLink n' d' p' s q := by
          intro q h1 h2
          obtain ⟨q1, q2⟩ := q
          rw [onLink_apply, if_neg h2, List.append_nil, hother _ _ _ _ _ (fun e => h1 e.1)]
        rcases dir with ⟨hv, f, e⟩ | ⟨c, nx, e⟩
        · have : l2 = [] := by subst hv; exact hp2.inj h .nil
          subst this
          have noV : ∀ q, q ∈ l1 → q.1 ≠ v := by
            intro q hq eq
            obtain ⟨m1, m2, e'⟩ := List.append_of_mem hq
            obtain ⟨q1, q2⟩ := q
            have := (hpath.suffix (l1 := m1) (u := q1) (v := q2) (l2 := m2 ++ [(u, v)]) (by rw [el, e']; simp)).1.ne h
            exact this (eq.trans hv)
          have k1 := onWay_congr (l := l1) (fun q hq => keep q
            (fun eq => ot1 q.2 (by rw [← eq]; exact hq)) (noV q hq))
          rw [k1, e]
          simp [onWay]
        · cases hp2 with
          | nil => exact absurd rfl (nx.ne h)
          | @cons _ b' l3 nx' hp3 =>
            have := nx.inj h nx'
            subst this
            have ev : l = (l1 ++ [(u, v)]) ++ (v, c) :: l3 := by rw [el]; simp
            obtain ⟨ov1, ov2⟩ := hpath.others h ev
            have k1 := onWay_congr (l := l1) (fun q hq => keep q
              (fun eq => ot1 q.2 (by rw [← eq]; exact hq))
              (fun eq => ov1 q.2 (by rw [← eq]; exact List.mem_append_left _ hq)))
            have k3 := onWay_congr (l := l3) (fun q hq => keep q
              (fun eq => ot2 q.2 (by rw [← eq]; exact List.mem_cons_of_mem _ hq))
              (fun eq => ov2 q.2 (by rw [← eq]; exact hq)))
            simp only [onWay]
            have kv : onLink n' d' p' (s0.apply v ((s.node v).onPkt v (net.par v) (net.core v) n' d' p' b, false)) (v, c) =
                onLink n' d' p' s (v, c) ++ [b] := by
              rw [onLink_apply, if_pos rfl, hother _ _ _ _ _ (fun e => hvu e.1), e]
              simp [bodyOf]
            rw [k1, k3, kv, e]
            simp
      · intro a c hne
        rw [onLink_apply] at hne
        by_cases hav : a = v
        · subst hav
          rw [if_pos rfl, hother _ _ _ _ _ (fun e => hvu e.1)] at hne
          rcases dir with ⟨hv, f, e⟩ | ⟨c', nx, e⟩
          · rw [e] at hne
            simp at hne
            exact hon a c (by simpa using hne)
          · by_cases hcc : c = c'
            · subst hcc
              cases hp2 with
              | nil => exact absurd rfl (nx.ne h)
              | @cons _ b' l3 nx' hp3 =>
                have := nx.inj h nx'
                subst this
                rw [el]
                exact List.mem_append_right _ (List.mem_cons_of_mem _ (List.mem_cons_self ..))
            · rw [e] at hne
              have : (c' == c) = false := by simpa using fun e => hcc e.symm
              simp [this] at hne
              exact hon a c (by simpa using hne)
        · rw [if_neg hav, List.append_nil] at hne
          by_cases hh : a = u ∧ c = v
          · obtain ⟨rfl, rfl⟩ := hh; exact hin
          · rw [hother _ _ _ _ _ hh] at hne; exact hon a c hne
  · have hb : bodyOf n' d' p' (.pkt n d pr b) = none := by
      exact bodyOf_none (fun hh => hsame ⟨hh.1.symm, hh.2.1.symm, hh.2.2.symm⟩)
    have hd0 : d ≠ 0 := by have g := K.one.good u v p hm; rw [hc] at g; exact g.2
    have h1 : sentTo (s0.apply v ((s.node v).onPkt v (net.par v) (net.core v) n d pr b, false)) n' d' p' =
        sentTo s n' d' p' := by unfold sentTo; rw [apply_sent, hsent]
    have h2 : gotFrom (s0.apply v ((s.node v).onPkt v (net.par v) (net.core v) n d pr b, false)) n' d' p' =
        gotFrom s n' d' p' := by
      unfold gotFrom
      rw [apply_got, hgot, List.filter_append, List.map_append]
      have : ((s.node v).onPkt v (net.par v) (net.core v) n d pr b).2.2.filter
          (fun x => x.src == n' && x.dest == d' && x.prio == p') = [] := by
        rw [List.filter_eq_nil_iff]
        intro q hq
        rcases K.packet' h (v := v) (n := n) (pr := pr) (b := b) hd0 with
          ⟨f, _, e⟩ | ⟨c, _, _, _, e⟩ | ⟨_, _, e⟩ | ⟨_, _, e⟩
        · rw [e, List.mem_singleton] at hq; subst hq
          simp only [Bool.and_eq_true, beq_iff_eq]
          intro hh; exact hsame ⟨hh.1.1.symm, hh.1.2.symm, hh.2.symm⟩
        · rw [e] at hq; cases hq
        · rw [e] at hq; cases hq
        · rw [e] at hq; cases hq
      rw [this]; simp
    have h3 : onLink n' d' p' (s0.apply v ((s.node v).onPkt v (net.par v) (net.core v) n d pr b, false)) =
        onLink n' d' p' s := by
      funext q
      obtain ⟨q1, q2⟩ := q
      have hr : onLink n' d' p' s0 (q1, q2) = onLink n' d' p' s (q1, q2) := by
        by_cases hh : q1 = u ∧ q2 = v
        · obtain ⟨rfl, rfl⟩ := hh
          unfold onLink
          simp only
          rw [hl0, upd_same, upd_same, hl, List.filterMap_append, List.filterMap_append, List.filterMap_cons, hc, hb]
        · exact hother _ _ _ _ _ hh
      rw [onLink_apply, hr]
      by_cases hq : q1 = v
      · rw [if_pos hq]
        rcases K.packet' h (v := v) (n := n) (pr := pr) (b := b) hd0 with
          ⟨f, _, e⟩ | ⟨c, _, _, _, e⟩ | ⟨_, _, e⟩ | ⟨_, _, e⟩
        · rw [e]; simp
        · rw [e]
          by_cases hcq : (c == q2) = true
          · simp [hcq, hb]
          · simp [hcq]
        · rw [e]
          by_cases hcq : (net.par v == q2) = true
          · simp [hcq, hb]
          · simp [hcq]
        · rw [e]; simp
      · rw [if_neg hq, List.append_nil]
    rcases O n' d' p' with a | ⟨o', l, a, b, c, e, f⟩
    · left; rw [h1, h2, h3]; exact a
    · right
      refine ⟨o', l, E.owner a, fun z hz hz' => E.has (b z hz hz'), c, ?_, ?_⟩
      · rw [h1, h2, h3]; exact e
      · rw [h3]; exact f

theorem Ord.step (h : net.Ok) (K : Inv net s) (O : Ord net s) (e : Ev)
    (hre : ∀ n nm re g, e = .join n nm re g → re = false)
    (had : ∀ n d p b, e = .send n d p b → d ∈ s.know n)
    (hs : Small (s.step net e)) : Ord net (s.step net e) := by
  cases e with
  | connect n =>
    have E := (K.connect h (n := n)).2
    unfold Sys.step at E ⊢; simp only at E ⊢
    split
    · exact O
    · rename_i hq
      rw [if_neg hq] at E
      refine O.same E rfl rfl fun n' d p u v => ?_
      exact (onLink_put n' d p _ n (net.par n) rfl u v).trans rfl
  | join n nm re g =>
    have E := (K.join h (n := n) (nm := nm) (g := g) (hre n nm re g rfl)).2
    unfold Sys.step at E ⊢; simp only at E ⊢
    revert E
    split
    · intro E
      refine O.same E rfl rfl fun n' d p u v => ?_
      exact (onLink_put n' d p _ n (net.par n) rfl u v).trans rfl
    · split
      · intro E
        refine O.same E rfl rfl fun n' d p u v => ?_
        exact (onLink_put n' d p _ n (net.par n) rfl u v).trans rfl
      · intro _; exact O
    · intro _; exact O
  | leave n nm => exact O.same (K.leave h).2 rfl rfl (fun _ _ _ _ _ => rfl)
  | send n d p b => exact O.send h K (had n d p b rfl)
  | take u v first admit dyn =>
    cases hp : pick first (s.link u v) with
    | none => rw [take_none hp]; exact O
    | some r =>
      obtain ⟨pre, p, post⟩ := r
      have E := (K.take h hs).2
      rw [take_some hp] at hs E ⊢
      obtain ⟨hl, hpre, _, _⟩ := pick_split hp
      obtain ⟨s0, hs0⟩ : ∃ s0 : Sys, s0 = { s with
        link := upd s.link u (upd (s.link u) v (pre ++ post))
        know := upd s.know v (s.know v ++ p.know) } := ⟨_, rfl⟩
      rw [← hs0] at hs E ⊢
      have hn0 : s0.node = s.node := by rw [hs0]
      have hl0 : s0.link = upd s.link u (upd (s.link u) v (pre ++ post)) := by rw [hs0]
      cases hpk : isPkt p.cmd with
      | false =>
        have T := K.taken h (admit := admit) (dyn := dyn) (s1 := s0) hp hpk (by
          intro hv
          have hs : ((s0.apply v _).node 0).count true ≤ 100000000 := hs
          rw [apply_node] at hs
          subst hv
          rw [upd_same] at hs
          exact hs) hn0 hl0
        refine O.same E (by rw [apply_sent, hs0]) (by rw [apply_got, hs0, T.got, List.append_nil]) ?_
        intro n' d' p' a c
        rw [onLink_apply]
        have h1 : (if a = v then (((s.node v).onCmd net v u admit dyn p.cmd).1.2.1.filter (fun x => x.1 == c)).filterMap
            (fun x => bodyOf n' d' p' x.2) else []) = [] := by
          split
          · rw [List.filterMap_eq_nil_iff]
            intro x hx
            exact bodyOf_quiet (T.quiet x (List.mem_filter.1 hx).1)
          · rfl
        rw [h1, List.append_nil]
        unfold onLink
        simp only
        rw [hl0]
        by_cases ha : a = u
        · subst ha; rw [upd_same]
          by_cases hb : c = v
          · subst hb
            rw [upd_same, hl, List.filterMap_append, List.filterMap_append, List.filterMap_cons, bodyOf_quiet hpk]
          · rw [upd_ne _ _ hb]
        · rw [upd_ne _ _ ha]
      | true =>
        cases hc : p.cmd with
        | reg => rw [hc] at hpk; cases hpk
        | ack => rw [hc] at hpk; cases hpk
        | pkt n d pr b =>
          exact O.packet h K hp hc hn0 hl0 (by rw [hs0]) (by rw [hs0])

theorem Ord.start : Ord net Sys.start := fun _ _ _ => .inl ⟨rfl, rfl, fun _ _ => rfl⟩

theorem Inv.known (h : net.Ok) (K : Inv net s) {n : Node} {d : Id} (hk : d ∈ s.know n) : Given s d := by
  obtain ⟨o, x, _⟩ := K.two.know n d hk
  rcases x with ⟨e, _⟩ | ⟨w, ⟨e, he, _, hi⟩, _⟩
  · exact .inl e
  · exact .inr ⟨e, he, hi⟩

theorem Ord.run (h : net.Ok) : ∀ (es : List Ev) (s : Sys), Inv net s → Ord net s → NoReentry es → Causal net s es →
    Small (s.run net es) → Inv net (s.run net es) ∧ Ord net (s.run net es) := by
  intro es
  induction es with
  | nil => intro s K O _ _ _; exact ⟨K, O⟩
  | cons e es ih =>
    intro s K O hr ha hs
    have hs1 : Small (s.step net e) := Nat.le_trans (count_run es (s.step net e)) hs
    have hre : ∀ n nm re g, e = .join n nm re g → re = false :=
      fun n nm re g he => hr n nm re g (by rw [← he]; exact List.mem_cons_self ..)
    obtain ⟨K1, E1⟩ := K.step h e hre hs1
    exact ih _ K1 (O.step h K e hre ha.1 hs1) (fun n nm re g hm => hr n nm re g (List.mem_cons_of_mem _ hm)) ha.2 hs

end Verif.Routes
