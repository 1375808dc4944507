import Verif.Props.RenameProps
/-!
# C67: cases
-/
namespace Verif.Rename

/-- The text of a literal. -/
def tx (s : String) : Text := s.toList

theorem template_of {t : Text} {i : Nat} (h : find marker t = some i) : Template t (t.take i) (t.drop (i + 4)) := by
  obtain ⟨p, s, hp, hl⟩ := find_template h
  have e := hp.1
  have h1 : t.take i = p := by rw [e, ← hl, List.append_assoc]; simp
  have h2 : t.drop (i + 4) = s := by rw [e, ← hl, List.drop_append_of_le_length (by simp)]; simp
  rw [h1, h2]; exact hp

/-- Requests for two templates and a plain name. -/
example : (renameAll [] [tx "p_${#}", tx "q${#}_x", tx "p_${#}", tx "plain", tx "p_${#}"]).1 =
    [tx "p_1", tx "q1_x", tx "p_2", tx "plain", tx "p_3"] := by decide +kernel

/-- The eleventh name has two digits. -/
example : (renameAll [] (List.replicate 11 (tx "p${#}"))).1[10]? = some (tx "p11") := by decide +kernel

/-- Only the first marker is replaced, and a text with a different marker is left alone. -/
example : (renameAll [] [tx "a${#}b${#}", tx "a${x}"]).1 = [tx "a1b${#}", tx "a${x}"] := by decide +kernel

/-- The hypotheses of `C67_distinct` and `C67_clean_distinct` are met. -/
theorem clean_player : Clean (tx "player_${#}") (tx "player_") := by
  have h := template_of (t := tx "player_${#}") (i := 7) (by decide +kernel)
  refine ⟨by simpa [tx] using h, ?_⟩
  rintro ⟨a, c, e, hc⟩
  have := congrArg List.getLast? e
  simp [tx] at this
  subst this
  exact absurd hc (by decide)

theorem clean_rec : Clean (tx "rec${#}") (tx "rec") := by
  have h := template_of (t := tx "rec${#}") (i := 3) (by decide +kernel)
  refine ⟨by simpa [tx] using h, ?_⟩
  rintro ⟨a, c, e, hc⟩
  have := congrArg List.getLast? e
  simp [tx] at this
  subst this
  exact absurd hc (by decide)

example : (renameAll [] [tx "player_${#}", tx "rec${#}", tx "player_${#}"]).1[0]? ≠
    (renameAll [] [tx "player_${#}", tx "rec${#}", tx "player_${#}"]).1[1]? :=
  C67_clean_distinct _ 0 1 (by decide) _ _ _ _ rfl rfl clean_player clean_rec

/-- Registrations with templates only, and a plain name. -/
example : (registerAll {} [tx "player_${#}", tx "rec${#}", tx "main", tx "player_${#}"]).1 =
    [.joined (tx "player_1"), .joined (tx "rec1"), .joined (tx "main"), .joined (tx "player_2")] := by decide +kernel

/-- C67 (counterexample): two templates can give the same name. -/
theorem C67_templates_collide : (renameAll [] (tx "a1${#}" :: List.replicate 11 (tx "a${#}"))).1[0]? =
    (renameAll [] (tx "a1${#}" :: List.replicate 11 (tx "a${#}"))).1[11]? := by decide +kernel

/-- C67 (counterexample): a federate with a plain name that looks like a numbered one makes a federate with a template fail, although the
number could have been passed over; asking again works. -/
theorem C67_plain_takes_number : (registerAll {} [tx "p_1", tx "p_${#}", tx "p_${#}"]).1 =
    [.joined (tx "p_1"), .duplicate, .joined (tx "p_2")] := by decide +kernel

/-- C67 (counterexample): a federate called `error_monitor_1` can join, and one called `error_monitor_${#}` cannot. -/
theorem C67_error_monitor : (registerAll {} [tx "error_monitor_1"]).1 = [.joined (tx "error_monitor_1")] ∧
    (registerAll {} [tx "error_monitor_${#}"]).1 = [.badNaming] := by
  refine ⟨by decide +kernel, ?_⟩
  exact C67_error_word [] (tx "error_monitor_${#}") _ _ (template_of (i := 14) (by decide +kernel))
    (.inl ⟨[], tx "_monitor_", by decide +kernel⟩)

end Verif.Rename
