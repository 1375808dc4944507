import Verif.Lemmas.ApiKeepRun
/-! # Histories of calls -/
namespace Verif
namespace App
variable {core : Core}

theorem start_js (single pot retrigger : Bool) (now : Time) : Js core (start single pot retrigger now) where
  ord := by rintro p c ⟨rest, h⟩; simp [start] at h
  tidy k e := absurd rfl e
  jobs k j e := by simp [start] at e
  init e := by simp [start] at e
  stop e := by simp [start] at e
  exec e := by simp [start] at e
  fin e := by simp [start] at e
  begun it e := by simp [start] at e
  told k v e := by simp [start] at e
  over := by rintro ⟨p, b, t, r, ⟨rest, h⟩, _⟩; simp [start] at h

theorem js_run {s : St} (h : Js core s) (ops : List Op) (ho : History Careful core s ops) : Js core (run core s ops) := by
  induction ops generalizing s with
  | nil => exact h
  | cons o os ih => exact ih (js_act h o ho.1) ho.2

/-- Everything is kept. -/
theorem closed_true : Closed (core := core) (fun _ _ => True) (fun _ _ => True) :=
  ⟨fun _ _ _ _ _ => trivial, fun _ _ _ _ _ => trivial, fun _ _ _ _ => trivial, fun _ _ _ _ => trivial, fun _ _ _ => trivial, .inr fun _ _ _ _ => trivial⟩

theorem F_act {s : St} (h : F core s.fut) (o : Op) : F core (act core o s).2.fut :=
  ((closed_true (core := core)).act o trivial h (fun _ _ _ => trivial) (fun _ _ _ => trivial) (fun _ _ _ => trivial) (fun _ _ => trivial)).2

theorem F_start (single pot retrigger : Bool) (now : Time) : F core (start single pot retrigger now).fut :=
  ⟨fun j e => by simp [start] at e, fun v e => by simp [start] at e⟩

theorem F_run {s : St} (h : F core s.fut) (ops : List Op) : F core (run core s ops).fut := by
  induction ops generalizing s with
  | nil => exact h
  | cons o os ih => exact ih (F_act h o)

/-- What holds along a history of allowed calls. -/
theorem keep_run {I : Mode → List Note → Prop} {ok : St → Op → Prop} {s : St} (hI : I s.mode s.notes) (hF : F core s.fut)
    (step : ∀ s o, ok s o → F core s.fut → I s.mode s.notes → I (act core o s).2.mode (act core o s).2.notes)
    (ops : List Op) (ho : History ok core s ops) : I (run core s ops).mode (run core s ops).notes := by
  induction ops generalizing s with
  | nil => exact hI
  | cons o os ih => exact ih (step s o ho.1 hF hI) (F_act hF o) ho.2

/-- The changes of mode that do not lead back. -/
theorem closed_rank (n : Nat) : Closed (core := core) (fun m _ => n ≤ m.rank) (fun a b => a.rank ≤ b.rank) where
  plain _ _ _ _ h := h
  step _ _ _ h1 h2 := Nat.le_trans h2 h1
  update _ _ _ h := h
  late _ _ _ h := Nat.le_trans h (by decide)
  base a b h := by revert h; cases a <;> cases b <;> decide
  grants := .inr (by rintro a b (rfl | rfl) (rfl | rfl | rfl) <;> decide)

theorem closed_error : Closed (core := core) (fun m _ => m = .error) (fun a b => a = .error → b = .error) where
  plain _ _ _ _ h := h
  step _ _ _ h1 h2 := h1 h2
  update _ _ _ h := h
  late _ _ _ h := by cases h
  base a b h := by rintro rfl; revert h; cases b <;> decide
  grants := .inr (by rintro a b (rfl | rfl) _ h <;> cases h)

end App
end Verif
