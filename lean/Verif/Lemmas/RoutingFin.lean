import Verif.Lemmas.RoutingCons
import Verif.Lemmas.RoutingDrain
import Verif.Lemmas.RoutingOrder
/-! At every moment only finitely much is going on; for C55. -/
namespace Verif.Routes

variable {net : Net} {s : Sys}

theorem Fits.soft {M : Nat} (F : Fits M s) {v p : Node} {x : NodeSt} {c : Cmd} {s' : Sys}
    (hs : s' = (s.setNode v x).put v p c) : ∃ M', Fits M' s' := by
  subst hs
  refine ⟨max M (max (v + 1) (p + 1)), ⟨fun a b hn => ?_, fun q hq => ?_⟩⟩
  · rw [put_link] at hn
    by_cases e : a = v ∧ b = p
    · obtain ⟨rfl, rfl⟩ := e; omega
    · rw [if_neg e] at hn
      have := F.links a b hn; omega
  · by_cases e : q = v
    · subst e; omega
    · rw [put_node, setNode_ne _ _ e] at hq
      have := F.orgs q hq; omega

theorem Fits.step {M : Nat} (F : Fits M s) (e : Ev) : ∃ M', Fits M' (s.step net e) := by
  cases e with
  | connect n =>
    unfold Sys.step; simp only
    split
    · exact ⟨M, F⟩
    · exact F.soft (c := .reg none (.brk n) false 0) rfl
  | join n nm re g =>
    unfold Sys.step; simp only
    split
    · exact F.soft (x := { s.node n with feds := (s.node n).feds ++ [⟨nm, none, re, false⟩] }) rfl
    · split
      · exact F.soft (x := { s.node n with
          feds := (s.node n).feds.map (fun l => if l.name = nm then { l with done := false } else l) }) rfl
      · exact ⟨M, F⟩
    · exact ⟨M, F⟩
  | leave n nm =>
    refine ⟨max M (n + 1), ⟨fun a b hn => ?_, fun q hq => ?_⟩⟩
    · have := F.links a b hn; omega
    · by_cases e : q = n
      · subst e; omega
      · have : (s.step net (.leave n nm)).node q = s.node q := upd_ne _ _ e
        rw [this] at hq
        have := F.orgs q hq; omega
  | send n d p b =>
    unfold Sys.step; simp only
    split
    · exact ⟨M, F⟩
    · obtain ⟨B, hB⟩ := bound ((s.node n).onPkt n (net.par n) (net.core n) n d p b).2.1
      have F' : Fits (max M (max B (n + 1))) ({ s with sent := s.sent ++ [⟨n, d, p, b⟩] } : Sys) :=
        (F.mono (by omega)).less rfl (fun _ _ h => h)
      refine ⟨max M (max B (n + 1)), F'.apply (by omega) ?_ ?_⟩
      · intro x hx; have := hB x hx; omega
      · simp only; rw [onPkt_node]; exact ⟨rfl, id⟩
  | take u v first admit dyn =>
    cases hp : pick first (s.link u v) with
    | none => rw [take_none hp]; exact ⟨M, F⟩
    | some r =>
      obtain ⟨pre, p, post⟩ := r
      rw [take_some hp]
      obtain ⟨hl, hpre, _, _⟩ := pick_split hp
      obtain ⟨s0, hs0⟩ : ∃ s0 : Sys, s0 = { s with
        link := upd s.link u (upd (s.link u) v (pre ++ post))
        know := upd s.know v (s.know v ++ p.know) } := ⟨_, rfl⟩
      rw [← hs0]
      have hn0 : s0.node = s.node := by rw [hs0]
      have hl0 : s0.link = upd s.link u (upd (s.link u) v (pre ++ post)) := by rw [hs0]
      obtain ⟨huM, hvM⟩ := F.links u v (by rw [hl]; simp)
      obtain ⟨B, hB⟩ := bound ((s.node v).onCmd net v u admit dyn p.cmd).1.2.1
      have F0 : Fits (max M B) s0 := (F.mono (by omega)).less hn0 (fun a b hab => by
        rw [hl0] at hab
        by_cases ha : a = u
        · subst ha; rw [upd_same] at hab
          by_cases hb : b = v
          · subst hb; rw [hl]; simp
          · rw [upd_ne _ _ hb] at hab; exact hab
        · rw [upd_ne _ _ ha] at hab; exact hab)
      refine ⟨max M B, F0.apply (by omega) (fun x hx => by have := hB x hx; omega) ?_⟩
      rw [hn0]; exact onCmd_org ..

theorem Fits.run (es : List Ev) : ∀ (s : Sys) {M : Nat}, Fits M s → ∃ M', Fits M' (s.run net es) := by
  induction es with
  | nil => intro s M F; exact ⟨M, F⟩
  | cons e es ih =>
    intro s M F
    obtain ⟨M', F'⟩ := F.step (net := net) e
    exact ih _ F'

theorem Fits.start : Fits 0 Sys.start := by
  refine ⟨fun u v hn => absurd rfl hn, fun o ho => ?_⟩
  unfold Sys.start at ho
  simp only at ho
  split at ho <;> simp at ho

theorem Inv.descend (h : net.Ok) (K : Inv net s) (q : Quiet s) {d : Id} (hd : d ≠ 0) {o : Node}
    (y : Owner net s d o) : ∀ (k u : Nat), o - u ≤ k → Has s u d → ∃ n f, Holds s n f d := by
  intro k
  induction k with
  | zero =>
    intro u hu x
    rcases x with ⟨f, x⟩ | x
    · exact ⟨u, f, x⟩
    · cases ht : (s.node u).table d with
      | none => exact absurd ht x
      | some c =>
        rcases K.two.flow u c d hd ht with z | ⟨p, hp, _⟩
        · have h1 := (K.one.hasBelow h z y).le h
          obtain ⟨w, o', _, t, hc, _⟩ := K.one.tabEnt ht hd
          have := hc.lt h
          omega
        · rw [q u c] at hp; cases hp
  | succ k ih =>
    intro u hu x
    rcases x with ⟨f, x⟩ | x
    · exact ⟨u, f, x⟩
    · cases ht : (s.node u).table d with
      | none => exact absurd ht x
      | some c =>
        rcases K.two.flow u c d hd ht with z | ⟨p, hp, _⟩
        · obtain ⟨w, o', _, t, hc, _⟩ := K.one.tabEnt ht hd
          have := hc.lt h
          exact ih c (by omega) z
        · rw [q u c] at hp; cases hp

end Verif.Routes
