import Verif.Props.Resume
/-!
C160: the keys that go to the start and to the end of the text.
-/
namespace RichText
variable {φ : Type}
open TextBox
namespace TextBox

/-- Ctrl+Home and Ctrl+End in a box that is being edited. -/
theorem go_end {e : BoxEnv φ} (hg : e.Good) {s : TextBox φ} (h : Sound e s) (hf : s.focused = true) (he : s.editable = true) (hne : s.text ≠ [])
    (last : Bool) : ∃ s', handle e s (if last then .end false true else .home false true) = some s' ∧ Editing e s' ∧
      s'.text = s.text ∧ s'.cursor.1 = if last then s.text.length else 0 := by
  have hp : s.showsRich = false := by simp [showsRich, hf, he]
  have hsh := shown_plain (e := e) hp
  have hctrl : s.ctrl = s.text := h.ctrl.trans hsh
  obtain ⟨s', h1, h2⟩ := handle_sound hg h (i := if last then .end false true else .home false true)
    (by cases last <;> exact ⟨.inl (by rw [hsh]; exact hne), nofun, nofun, h.small⟩)
  have hset : ∃ c : Cursor, setCursor e s c false = some s' ∧ c.1 = if last then s.text.length else 0 := by
    cases last
    · simp only [Bool.false_eq_true, if_false, handle, hf, if_true, key, TextBox.textStart] at h1
      exact ⟨_, h1, rfl⟩
    · simp only [handle, hf, if_true, key, TextBox.textEnd] at h1
      exact ⟨_, h1, by simp only [if_true]; rw [hctrl]⟩
  obtain ⟨c, hc, hc1⟩ := hset
  obtain ⟨f1, f2⟩ := setCursor_fields hc
  have hf' : s'.focused = true := by rw [f1]; exact hf
  refine ⟨s', h1, ⟨h2.sound hf', hf', by rw [f1]; exact he, f2 rfl⟩, by rw [f1], ?_⟩
  rw [f1]
  exact hc1

end TextBox

section
variable {e : BoxEnv φ}

/-- C160: characters typed after Ctrl+Home stand before the text, whatever is selected. -/
theorem C160_before (hg : e.Good) {s : TextBox φ} (h : Sound e s) (hf : s.focused = true) (he : s.editable = true) (hne : s.text ≠ [])
    (cs : List Nat) (hl : s.text.length + 4 * cs.length < e.limit) :
    ∃ s', run e s (.home false true :: cs.map .char) = some s' ∧ Editing e s' ∧ s'.text = cs.flatMap utf8Encode ++ s.text := by
  obtain ⟨s1, a1, a2, a3, a4⟩ := go_end hg h hf he hne false
  simp only [Bool.false_eq_true, if_false] at a1 a4
  obtain ⟨s2, b1, b2, -, b3⟩ := Editing.types hg cs a2 (by rw [a3]; exact hl)
  exact ⟨s2, by simp only [run, a1]; exact b1, b2, by rw [b3, a3, a4]; simp⟩

/-- C160: characters typed after Ctrl+End stand behind the text. -/
theorem C160_behind (hg : e.Good) {s : TextBox φ} (h : Sound e s) (hf : s.focused = true) (he : s.editable = true) (hne : s.text ≠ [])
    (cs : List Nat) (hl : s.text.length + 4 * cs.length < e.limit) :
    ∃ s', run e s (.end false true :: cs.map .char) = some s' ∧ Editing e s' ∧ s'.text = s.text ++ cs.flatMap utf8Encode := by
  obtain ⟨s1, a1, a2, a3, a4⟩ := go_end hg h hf he hne true
  simp only [if_true] at a1 a4
  obtain ⟨s2, b1, b2, -, b3⟩ := Editing.types hg cs a2 (by rw [a3]; exact hl)
  exact ⟨s2, by simp only [run, a1]; exact b1, b2, by rw [b3, a3, a4]; simp⟩

/-- C160: Backspace, Delete and Cut after Ctrl+Shift+Home remove what is before the caret, and after Ctrl+Shift+End what is behind it. -/
theorem C160_removes (hg : e.Good) {s : TextBox φ} (h : Editing e s) {i : Input} (hi : RemovesSelection i) :
    (0 < s.cursor.1 → ∃ s', run e s [.home true true, i] = some s' ∧ s'.text = s.text.drop s.cursor.1 ∧ s'.cursor.1 = 0 ∧ s'.sel = none) ∧
    (s.cursor.1 < s.text.length →
      ∃ s', run e s [.end true true, i] = some s' ∧ s'.text = s.text.take s.cursor.1 ∧ s'.cursor.1 = s.cursor.1 ∧ s'.sel = none) := by
  have hle := h.cursor
  constructor <;> intro hc
  · have hne : s.text ≠ [] := fun h0 => by rw [h0] at hle; simp at hle; omega
    obtain ⟨s1, a1, a2, a3, a4⟩ := go_end hg h.sound h.focused h.editable hne false
    simp only [Bool.false_eq_true, if_false] at a1 a4
    obtain ⟨s2, b1, b2, b3, b4⟩ := C158_removed_partial hg h hne (.home true) [] (s0 := s1) (by simp only [List.map_cons, List.map_nil, MoveKey.press, run, a1])
      (fun h0 => by rw [h0] at hc; omega) hi
    exact ⟨s2, b1, by rw [b4, a4]; simp, by rw [b3, a4]; simp, b2⟩
  · have hne : s.text ≠ [] := fun h0 => by rw [h0] at hc; simp at hc
    obtain ⟨s1, a1, a2, a3, a4⟩ := go_end hg h.sound h.focused h.editable hne true
    simp only [if_true] at a1 a4
    obtain ⟨s2, b1, b2, b3, b4⟩ := C158_removed_partial hg h hne (.end true) [] (s0 := s1) (by simp only [List.map_cons, List.map_nil, MoveKey.press, run, a1])
      (fun h0 => by rw [h0, a4] at hc; omega) hi
    refine ⟨s2, b1, ?_, by rw [b3, a4]; omega, b2⟩
    rw [b4, a4, Nat.min_eq_left hle, Nat.max_eq_right hle]
    simp

/-! The hypotheses are met: "abcd" typed, then `x` at the start and at the end; and the part before or behind the caret removed. -/

example : (run marksBox {} (typeAbcd ++ [.home false true, .char 120])).map (·.text) = some b!"xabcd" ∧
    (run marksBox {} (typeAbcd ++ [.left false false, .end false true, .char 120])).map (·.text) = some b!"abcdx" ∧
    (run marksBox {} (typeAbcd ++ [.left false false, .home true true, .backspace false])).map (·.text) = some b!"d" ∧
    (run marksBox {} (typeAbcd ++ [.left false false, .end true true, .delete false])).map (·.text) = some b!"abc" := by decide +kernel

end
end RichText
