import Verif.Props.SingleLine
/-!
C157: what the clipboard holds.
-/
namespace RichText
variable {φ : Type}
open TextBox
namespace TextBox

section
variable {e : BoxEnv φ} {s s' : TextBox φ}

theorem removeHighlighted_clip (h : removeHighlighted e s = some s') : s'.clip = s.clip := by
  unfold removeHighlighted at h
  split at h
  · cases h; rfl
  · split at h
    · cases h; rfl
    · split at h
      · rw [(removeText_fields h).2]
      · rw [(removeText_fields h).2]

theorem insertTyped_clip {c : Nat} (h : insertTyped e s c = some s') : s'.clip = s.clip := by
  unfold insertTyped at h
  split at h
  · cases h
  · rename_i s1 h1
    rw [← removeHighlighted_clip h1, insertText_fields h]

/-- No other input than Copy and Cut changes the clipboard. -/
theorem handle_clip {i : Input} (h1 : i ≠ .copy) (h2 : i ≠ .cut) (h : handle e s i = some s') : s'.clip = s.clip := by
  cases i <;> simp only [handle, key] at h
  case press => exact (press_stays h).2.1
  case release => split at h <;> cases h <;> rfl
  case move =>
    split at h
    · exact (match_stays h).2.1
    · cases h; rfl
  case char c =>
    split at h
    · exact insertTyped_clip h
    · cases h; rfl
  case focus => exact (focus_stays h).2.1
  case blur => exact (blur_stays h).2.1
  all_goals split at h
  all_goals try (cases h; rfl)
  case up => exact (prevLine_stays h).2.1
  case down => exact (nextLine_stays h).2.1
  case left =>
    split at h
    · exact (match_stays h).2.1
    · exact (setCursor_stays h).2.1
  case right =>
    split at h
    · exact (match_stays h).2.1
    · exact (setCursor_stays h).2.1
  case home =>
    split at h
    · exact (setCursor_stays h).2.1
    · exact (match_stays h).2.1
  case «end» =>
    split at h
    · exact (setCursor_stays h).2.1
    · exact (match_stays h).2.1
  case backspace =>
    unfold TextBox.backspace at h
    split at h
    · exact removeHighlighted_clip h
    · split at h
      · split at h
        · cases h
        · rename_i s1 h1
          rw [(removeText_fields h).2]
          split at h1
          · exact (match_stays h1).2.1
          · exact (setCursor_stays h1).2.1
      · cases h; rfl
  case delete =>
    unfold TextBox.delete at h
    split at h
    · exact removeHighlighted_clip h
    · split at h
      · split at h
        · cases h
        · rename_i s1 h1
          rw [(removeText_fields h).2]
          split at h1
          · exact (match_stays h1).2.1
          · exact (setCursor_stays h1).2.1
      · cases h; rfl
  case enter =>
    unfold TextBox.enter at h
    split at h
    · split at h
      · cases h
      · rename_i s1 h1
        exact (insertTyped_clip h).trans (removeHighlighted_clip h1)
    · exact (blur_stays h).2.1
  case tab => exact insertTyped_clip h
  case cut => exact absurd rfl h2
  case copy => exact absurd rfl h1
  case paste =>
    unfold TextBox.paste at h
    split at h
    · cases h; rfl
    · split at h
      · cases h
      · rename_i s1 h1
        split at h
        · cases h
        · rw [← removeHighlighted_clip h1, insertText_fields h]
  case selectAll => exact (between_stays (fun h => setCursor_stays h) (fun h => setCursor_stays h) h).2.1

theorem run_clip : ∀ (is : List Input) {s s' : TextBox φ}, .copy ∉ is → .cut ∉ is → run e s is = some s' → s'.clip = s.clip
  | [], s, s', _, _, h => by
    simp only [run] at h
    cases h
    rfl
  | i :: is, s, s', hc, hx, h => by
    simp only [List.mem_cons, not_or] at hc hx
    simp only [run] at h
    cases h1 : handle e s i with
    | none => rw [h1] at h; cases h
    | some s1 =>
      rw [h1] at h
      exact (run_clip is hc.2 hx.2 h).trans (handle_clip (Ne.symm hc.1) (Ne.symm hx.1) h1)

theorem run_split : ∀ (is js : List Input) {s s' : TextBox φ}, run e s (is ++ js) = some s' → ∃ m, run e s is = some m ∧ run e m js = some s'
  | [], js, s, s', h => ⟨s, rfl, h⟩
  | i :: is, js, s, s', h => by
    simp only [List.cons_append, run] at h
    cases h1 : handle e s i with
    | none => rw [h1] at h; cases h
    | some s1 =>
      rw [h1] at h
      obtain ⟨m, h2, h3⟩ := run_split is js h
      exact ⟨m, by simp only [run, h1]; exact h2, h3⟩

end

/-- Something is selected: the bytes from `a` to `b` of the text. -/
def Selects (s : TextBox φ) (a b : Nat) : Prop := ∃ c, s.sel = some c ∧ a = min c.1 s.cursor.1 ∧ b = max c.1 s.cursor.1 ∧ a < b

end TextBox

section
variable {e : BoxEnv φ} {s s' m : TextBox φ}

/-- C157: whatever is done after something was copied or cut, as long as nothing else is, the clipboard holds the bytes that were selected then.
Missing from the full statement: selections with a byte that is zero, for which it is false (`C157_nul_violated`). -/
theorem C157_holds_partial {is js : List Input} {i : Input} {a b : Nat} (h1 : run e s is = some m) (hf : m.focused = true) (hsel : Selects m a b)
    (hi : i = .copy ∨ i = .cut ∧ m.editable = true) (h0 : ∀ x ∈ (m.text.drop a).take (b - a), x ≠ 0) (hc : .copy ∉ js) (hx : .cut ∉ js)
    (h : run e s (is ++ i :: js) = some s') : s'.clip = some ((m.text.drop a).take (b - a)) := by
  obtain ⟨m', h2, h3⟩ := run_split is (i :: js) h
  rw [h1] at h2
  cases h2
  obtain ⟨c, hs, rfl, rfl, hlt⟩ := hsel
  have hne : c.1 ≠ m.cursor.1 := by omega
  simp only [run] at h3
  cases h4 : handle e m i with
  | none => rw [h4] at h3; cases h3
  | some m1 =>
    rw [h4] at h3
    rw [run_clip js hc hx h3]
    have hall : ((m.text.drop (min c.1 m.cursor.1)).take (max c.1 m.cursor.1 - min c.1 m.cursor.1)).takeWhile (· ≠ 0) =
        (m.text.drop (min c.1 m.cursor.1)).take (max c.1 m.cursor.1 - min c.1 m.cursor.1) :=
      List.takeWhile_eq_self_iff.2 (fun x hx => by simpa using h0 x hx)
    rcases hi with rfl | ⟨rfl, he⟩
    · simp only [handle, hf, if_true, key] at h4
      rw [copy_clip hs hne h4, hall]
    · rw [cut_clip hf he hs hne h4, hall]

/-- C157: the clipboard stays as it was when nothing is copied and nothing cut. -/
theorem C157_kept {is : List Input} (hc : .copy ∉ is) (hx : .cut ∉ is) (h : run e s is = some s') : s'.clip = s.clip := run_clip is hc hx h

/-- C157: Copy and Cut leave the clipboard as it was when nothing is selected. -/
theorem C157_nothing {i : Input} (hi : i = .copy ∨ i = .cut) (hn : ∀ a b, ¬ Selects s a b) (h : handle e s i = some s') : s'.clip = s.clip := by
  have hcopy : ∀ {s1 : TextBox φ}, TextBox.copy s = some s1 → s1.clip = s.clip := by
    intro s1 h1
    unfold TextBox.copy at h1
    split at h1
    · cases h1; rfl
    · rename_i c hs
      simp only at h1
      split at h1
      · cases h1; rfl
      · rename_i hne
        exact absurd ⟨c, hs, rfl, rfl, by omega⟩ (hn (min c.1 s.cursor.1) (max c.1 s.cursor.1))
  rcases hi with rfl | rfl
  · simp only [handle, key] at h
    split at h
    · exact hcopy h
    · cases h; rfl
  · simp only [handle, key] at h
    split at h
    · unfold TextBox.cut at h
      split at h
      · cases h; rfl
      · split at h
        · cases h
        · rename_i s1 h1
          exact (removeHighlighted_clip h).trans (hcopy h1)
    · cases h; rfl

/-- C157: Cut in a box that cannot be edited does nothing at all. -/
theorem C157_readonly (he : s.editable = false) (h : handle e s .cut = some s') : s' = s := by
  simp only [handle, key, TextBox.cut, he, Bool.not_false, if_true] at h
  split at h <;> cases h <;> rfl

/-- C157: what was copied or cut can be pasted however much is done in between: it is inserted at the caret as it was selected. -/
theorem C157_pasted_partial (hg : e.Good) {is js : List Input} {i : Input} {a b : Nat} (h1 : run e s is = some m) (hf : m.focused = true)
    (hsel : Selects m a b) (hi : i = .copy ∨ i = .cut ∧ m.editable = true) (h0 : ∀ x ∈ (m.text.drop a).take (b - a), x ≠ 0) (hc : .copy ∉ js)
    (hx : .cut ∉ js) (h : run e s (is ++ i :: js) = some s') (he : Editing e s') (hl : s'.text.length + (b - a) < e.limit) :
    ∃ s'', handle e s' .paste = some s'' ∧
      s''.text = s'.text.take s'.cursor.1 ++ (m.text.drop a).take (b - a) ++ s'.text.drop s'.cursor.1 := by
  obtain ⟨s'', k1, -, k2, -⟩ := Editing.paste hg he (C157_holds_partial h1 hf hsel hi h0 hc hx h)
    (Nat.lt_of_le_of_lt (Nat.add_le_add_left (by rw [List.length_take]; omega) _) hl)
  exact ⟨s'', k1, k2⟩

/-- C157 is false for text with a byte that is zero: the clipboard never holds the whole selection then. -/
theorem C157_nul_violated {a b : Nat} (hf : s.focused = true) (hsel : Selects s a b) (h0 : 0 ∈ (s.text.drop a).take (b - a))
    (h : handle e s .copy = some s') : s'.clip ≠ some ((s.text.drop a).take (b - a)) := by
  obtain ⟨c, hs, rfl, rfl, hlt⟩ := hsel
  simp only [handle, hf, if_true, key] at h
  rw [copy_clip hs (by omega) h]
  intro heq
  have := List.takeWhile_eq_self_iff.1 (Option.some.inj heq) 0 h0
  simp at this

/-! The hypotheses are met: `abc` typed, `bc` selected with shift and cut, `x` typed, everything selected, and pasted; and a character zero typed
between two others and copied. -/

example : (run marksBox {} [.focus, .char 97, .char 98, .char 99, .left true false, .left true false]).map
      (fun s => (s.text, s.focused, s.editable, s.sel.map (·.1), s.cursor.1)) = some (b!"abc", true, true, some 3, 1) := by decide +kernel

example : (run marksBox {} ([.focus, .char 97, .char 98, .char 99, .left true false, .left true false] ++ Input.cut :: [.char 120])).map
      (fun s => (s.text, s.clip, s.sel.isNone, s.cursor.1)) = some (b!"ax", some b!"bc", true, 2) := by decide +kernel

example : (run marksBox {} [.focus, .char 97, .char 98, .char 99, .left true false, .left true false, .cut, .char 120, .paste]).map (·.text) =
    some b!"axbc" := by decide +kernel

example : (run marksBox {} [.focus, .char 97, .char 0, .char 98, .selectAll, .copy]).map (fun s => (s.text, s.clip, s.sel.map (·.1), s.cursor.1)) =
    some ([97, 0, 98], some [97], some 0, 3) := by decide +kernel

end
end RichText
