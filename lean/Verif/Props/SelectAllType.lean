import Verif.Props.ShiftClick
/-!
C155: the whole text is selected and replaced.
-/
namespace RichText
variable {φ : Type}
open TextBox
namespace TextBox

/-- Ctrl+A in a box with text. -/
theorem select_all {e : BoxEnv φ} (hg : e.Good) {s : TextBox φ} (h : Editing e s) (hne : s.text ≠ []) :
    ∃ s' a, handle e s .selectAll = some s' ∧ Sound e s' ∧ s'.focused = true ∧ s'.editable = true ∧ s'.sel = some a ∧ a.1 = 0 ∧
      s'.cursor.1 = s.text.length ∧ s'.text = s.text ∧ s'.rich = s.rich := by
  obtain ⟨s', h1, h2⟩ := handle_sound hg h.sound (i := .selectAll) ⟨.inl (by rw [h.shown]; exact hne), nofun, nofun, h.sound.small⟩
  obtain ⟨c1, c2, c3⟩ := C64_select_all h.focused h1
  obtain ⟨a, a1, a2⟩ := Option.map_eq_some_iff.1 c1
  have hf : s'.focused = true := by rw [c3]; exact h.focused
  exact ⟨s', a, h1, h2.sound hf, hf, by rw [c3]; exact h.editable, a1, a2, by rw [c2, h.ctrl], by rw [c3], by rw [c3]⟩

/-- Removing the selection that holds the whole text. -/
theorem remove_all {e : BoxEnv φ} (hg : e.Good) {s : TextBox φ} (h : Sound e s) (hf : s.focused = true) (he : s.editable = true) {a : Cursor}
    (hs : s.sel = some a) (ha : a.1 = 0) (hc : s.cursor.1 = s.text.length) (hne : s.text ≠ []) :
    ∃ s', removeHighlighted e s = some s' ∧ Editing e s' ∧ s'.text = [] ∧ s'.cursor.1 = 0 := by
  obtain ⟨s', h1, h2, -⟩ := removeHighlighted_sound hg h (by simp [showsRich, hf, he])
  have hpos := List.length_pos_iff.2 hne
  have h3 := h1
  have hac : a ≠ s.cursor := fun h0 => by rw [h0] at ha; omega
  unfold removeHighlighted at h3
  simp only [hs, hac, if_false] at h3
  rw [if_neg (by omega)] at h3
  have h4 := (removeText_fields h3).2
  refine ⟨s', h1, ⟨h2, by rw [h4]; exact hf, by rw [h4]; exact he, by rw [h4]⟩, ?_, by rw [h4]; exact ha⟩
  rw [h4]
  simp [ha, hc]

end TextBox

/-- Keys that remove what is selected. -/
def RemovesSelection (i : Input) : Prop := (∃ ctrl, i = .backspace ctrl) ∨ (∃ ctrl, i = .delete ctrl) ∨ i = .cut

/-- C155: in a text box that is being edited, Ctrl+A and characters typed: the text is what was typed, nothing else. -/
theorem C155_typed {e : BoxEnv φ} (hg : e.Good) {s : TextBox φ} (h : Editing e s) (hne : s.text ≠ []) (c : Nat) (cs : List Nat)
    (hl : s.text.length + 4 * (cs.length + 1) < e.limit) :
    ∃ s', run e s (.selectAll :: (c :: cs).map .char) = some s' ∧ Editing e s' ∧ s'.text = (c :: cs).flatMap utf8Encode ∧
      s'.cursor.1 = s'.text.length := by
  obtain ⟨s1, a, a1, a2, a3, a4, a5, a6, a7, a8, -⟩ := select_all hg h hne
  have hpos := List.length_pos_iff.2 hne
  obtain ⟨s2, b1, b2, b3, b4⟩ := types_over hg a2 a3 a4 a5 (fun h0 => by rw [h0] at a6; omega) c cs (by rw [a8]; exact hl)
  have ht : s2.text = (c :: cs).flatMap utf8Encode := by rw [b3, a6, a7, a8]; simp
  refine ⟨s2, by simp only [run, a1]; exact b1, b2, ht, ?_⟩
  rw [b4, a6, ht, Nat.zero_min, Nat.zero_add]

/-- C155: the same with Backspace, Delete or Cut in between. -/
theorem C155_removed {e : BoxEnv φ} (hg : e.Good) {s : TextBox φ} (h : Editing e s) (hne : s.text ≠ []) {i : Input} (hi : RemovesSelection i)
    (cs : List Nat) (hl : 4 * cs.length < e.limit) :
    ∃ s1 s', run e s [.selectAll, i] = some s1 ∧ s1.text = [] ∧ s1.cursor.1 = 0 ∧ s1.sel = none ∧
      run e s1 (cs.map .char) = some s' ∧ Editing e s' ∧ s'.text = cs.flatMap utf8Encode := by
  obtain ⟨s1, a, a1, a2, a3, a4, a5, a6, a7, a8, -⟩ := select_all hg h hne
  have hpos := List.length_pos_iff.2 hne
  have hrem : ∃ s2, handle e s1 i = some s2 ∧ Editing e s2 ∧ s2.text = [] ∧ s2.cursor.1 = 0 := by
    obtain ⟨s2, r1, r2, r3, r4⟩ := remove_all hg a2 a3 a4 a5 a6 (by rw [a7, a8]) (by rw [a8]; exact hne)
    rcases hi with ⟨ctrl, rfl⟩ | ⟨ctrl, rfl⟩ | rfl
    · exact ⟨s2, by simp only [handle, a3, if_true, key, TextBox.backspace, a5, Option.isSome_some]; exact r1, r2, r3, r4⟩
    · exact ⟨s2, by simp only [handle, a3, if_true, key, TextBox.delete, a5, Option.isSome_some]; exact r1, r2, r3, r4⟩
    · have hac : a.1 ≠ s1.cursor.1 := by omega
      have hcp : ∃ t, TextBox.copy s1 = some { s1 with clip := some t } := by
        have : min a.1 s1.cursor.1 ≤ s1.text.length := by omega
        simp only [TextBox.copy, a5, hac, if_false, this, if_true]
        exact ⟨_, rfl⟩
      obtain ⟨t, ht⟩ := hcp
      obtain ⟨s3, q1, q2, q3, q4⟩ := remove_all hg (s := { s1 with clip := some t }) ⟨a2.mode, a2.ctrl, a2.small, a2.cursor, a2.sel, a2.laid⟩ a3 a4 a5 a6
        (by simp only; rw [a7, a8]) (by simp only; rw [a8]; exact hne)
      have hcut : TextBox.cut e s1 = some s3 := by
        unfold TextBox.cut
        rw [if_neg (by simp [a4]), ht]
        exact q1
      exact ⟨s3, by simp only [handle, a3, if_true, key, hcut], q2, q3, q4⟩
  obtain ⟨s2, r1, r2, r3, r4⟩ := hrem
  obtain ⟨s3, t1, t2, -, t4⟩ := r2.types hg cs (by rw [r3]; simpa using hl)
  exact ⟨s2, s3, by simp only [run, a1, r1], r3, r4, r2.sel, t1, t2, by rw [t4, r3]; simp⟩

/-! The hypotheses are met by "abcd" typed into a box. -/

example : (run marksBox {} (typeAbcd ++ [.selectAll, .char 120, .char 121])).map (fun s => (s.text, s.cursor.1)) = some (b!"xy", 2) ∧
    (run marksBox {} (typeAbcd ++ [.selectAll, .backspace true, .char 120, .char 121])).map (fun s => (s.text, s.cursor.1)) = some (b!"xy", 2) ∧
    (run marksBox {} (typeAbcd ++ [.selectAll, .cut, .char 120, .paste])).map (fun s => (s.text, s.cursor.1)) = some (b!"xabcd", 5) := by decide +kernel

end RichText
