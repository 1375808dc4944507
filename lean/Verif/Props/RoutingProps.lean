import Verif.Lemmas.RoutingFin
/-!
# C55: what is addressed to somebody gets to exactly that somebody

For every hierarchy of brokers and cores, and every history of registrations, sendings and
deliveries in it, in every interleaving.
-/
namespace Verif.Routes

variable {net : Net}

/-- No two parts of a federation (brokers, cores, federates) have the same identifier. -/
theorem C55_ids_unique (h : net.Ok) (es : List Ev) (hr : NoReentry es) (hs : Small (Sys.start.run net es))
    {n n' : Node} {f f' : Option String} {d : Id} (x : Holds (Sys.start.run net es) n f d)
    (y : Holds (Sys.start.run net es) n' f' d) : n = n' ∧ f = f' :=
  ((Inv.start h).run h es _ hr hs).1.one.holdsInj h x y

/-- An identifier, once held, is held for ever. -/
theorem C55_ids_stay (h : net.Ok) (es fs : List Ev) (hr : NoReentry (es ++ fs))
    (hs : Small (Sys.start.run net (es ++ fs)))
    {n : Node} {f : Option String} {d : Id} (x : Holds (Sys.start.run net es) n f d) :
    Holds (Sys.start.run net (es ++ fs)) n f d := by
  have e : Sys.start.run net (es ++ fs) = (Sys.start.run net es).run net fs := List.foldl_append ..
  rw [e] at hs ⊢
  have K := ((Inv.start h).run h es Sys.start (fun n nm re g hm => hr n nm re g (List.mem_append_left _ hm))
    (Nat.le_trans (count_run fs _) hs)).1
  exact (K.run h fs _ (fun n nm re g hm => hr n nm re g (List.mem_append_right _ hm)) hs).2.holds x

/-- Whoever is given something has the identifier it was addressed to. -/
theorem C55_by_addressee (h : net.Ok) (es : List Ev) (hr : NoReentry es)
    (hs : Small (Sys.start.run net es)) {g : Got} (hg : g ∈ (Sys.start.run net es).got) :
    Holds (Sys.start.run net es) g.node g.fed g.dest :=
  ((Inv.start h).run h es _ hr hs).1.two.got g hg

/-- If everything is addressed to identifiers that have been given out, then once nothing is on its
way, what was given to the network and what the network gave are the same, neither lost nor
duplicated. -/
theorem C55_received (h : net.Ok) (es : List Ev) (hr : NoReentry es) (ha : Addressed net Sys.start es)
    (hs : Small (Sys.start.run net es)) (q : Quiet (Sys.start.run net es)) :
    ((Sys.start.run net es).got.map Got.pack).Perm ((Sys.start.run net es).sent.map Sent.pack) := by
  obtain ⟨M0, _, C⟩ := Cons.run h es Sys.start (Inv.start h)
    (fun u v p n d pr b hp _ => by cases hp) Cons.start hr ha hs
  rw [List.perm_iff_count]
  intro k
  have := C M0 (Nat.le_refl _) k
  rw [total_empty q] at this
  exact this

/-- Even before that, nothing is duplicated or made up: of each thing, at most as many are received
as were sent. -/
theorem C55_no_duplicates (h : net.Ok) (es : List Ev) (hr : NoReentry es) (ha : Addressed net Sys.start es)
    (hs : Small (Sys.start.run net es)) (k : Node × Id × Bool × Nat) :
    ((Sys.start.run net es).got.map Got.pack).count k ≤ ((Sys.start.run net es).sent.map Sent.pack).count k := by
  obtain ⟨M0, _, C⟩ := Cons.run h es Sys.start (Inv.start h)
    (fun u v p n d pr b hp _ => by cases hp) Cons.start hr ha hs
  have := C M0 (Nat.le_refl _) k
  omega

/-- Nothing travels for ever: from every state that can come about, the nodes can only take so many
commands before nothing is on its way any more, whatever they take and in whatever order. -/
theorem C55_drains (h : net.Ok) (es : List Ev) (hr : NoReentry es) :
    ∃ B, ∀ ms, Moving net (Sys.start.run net es) ms → Small ((Sys.start.run net es).run net ms) →
      ms.length ≤ B := by
  obtain ⟨M, F⟩ := Fits.start.run (net := net) es
  refine ⟨measure net M (Sys.start.run net es), fun ms hm hs => ?_⟩
  exact drains_run h ms _ M ((Inv.start h).run h es _ hr (Nat.le_trans (count_run ms _) hs)).1 F hm hs

/-- ... and as long as something is on its way, some node can take it. -/
theorem C55_can_move {s : Sys} (hq : ¬ Quiet s) : ∃ e, Ev.moves s e := by
  obtain ⟨u, hu⟩ := Classical.not_forall.1 hq
  obtain ⟨v, hv⟩ := Classical.not_forall.1 hu
  cases hl : s.link u v with
  | nil => exact absurd hl hv
  | cons p l => exact ⟨.take u v false true true, p, by rw [hl]; exact List.mem_cons_self .., fun e => by cases e⟩

/-- What one node sends to one identifier, with the same priority, arrives in the order in which it
was sent, provided that nodes only write to those they have heard of. -/
theorem C55_order (h : net.Ok) (es : List Ev) (hr : NoReentry es) (hc : Causal net Sys.start es)
    (hs : Small (Sys.start.run net es)) (n : Node) (d : Id) (p : Bool) :
    gotFrom (Sys.start.run net es) n d p <+: sentTo (Sys.start.run net es) n d p := by
  rcases (Ord.run h es _ (Inv.start h) Ord.start hr hc hs).2 n d p with ⟨a, b, _⟩ | ⟨o, l, f⟩
  · rw [a, b]; exact List.prefix_refl _
  · exact ⟨_, f.2.2.2.1.symm⟩

/-- ... and once nothing is on its way, all of it has arrived. -/
theorem C55_order_all (h : net.Ok) (es : List Ev) (hr : NoReentry es) (hc : Causal net Sys.start es)
    (hs : Small (Sys.start.run net es)) (q : Quiet (Sys.start.run net es)) (n : Node) (d : Id) (p : Bool) :
    gotFrom (Sys.start.run net es) n d p = sentTo (Sys.start.run net es) n d p := by
  rcases (Ord.run h es _ (Inv.start h) Ord.start hr hc hs).2 n d p with ⟨a, b, _⟩ | ⟨o, l, f⟩
  · rw [a, b]
  · have := f.2.2.2.1
    rw [onWay_nil (fun e => by unfold onLink; rw [q e.1 e.2]; rfl), List.append_nil] at this
    exact this.symm

/-- Whoever has heard of an identifier has heard of one that was given out. -/
theorem C55_heard_is_given (h : net.Ok) (es : List Ev) (hr : NoReentry es)
    (hs : Small (Sys.start.run net es)) {n : Node} {d : Id} (hk : d ∈ (Sys.start.run net es).know n) :
    Given (Sys.start.run net es) d :=
  ((Inv.start h).run h es _ hr hs).1.known h hk

/-- Once nothing is on its way, each identifier which the root gave out has reached its holder. -/
theorem C55_registered (h : net.Ok) (es : List Ev) (hr : NoReentry es) (hs : Small (Sys.start.run net es))
    (q : Quiet (Sys.start.run net es)) {d : Id} (g : Given (Sys.start.run net es) d) :
    ∃ n f, Holds (Sys.start.run net es) n f d := by
  have K := ((Inv.start h).run h es _ hr hs).1
  obtain ⟨o, y⟩ := K.one.given h g
  exact K.descend h q (K.one.ownerBig y) y _ 0 (Nat.le_refl _) (K.one.rootHas h y)

/-- No broker ever gets the answer to a registration it does not know of (the code would dereference
the end of a container, CoreBroker.cpp:757-763, 818-823). -/
theorem C55_no_stray (h : net.Ok) (es : List Ev) (hr : NoReentry es) (hs : Small (Sys.start.run net es)) :
    (Sys.start.run net es).stray = false :=
  ((Inv.start h).run h es _ hr hs).1.two.stray

end Verif.Routes
