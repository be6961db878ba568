import Verif.Props.DoubleClick
/-!
C148: text cut or copied and pasted at once is as it was.
-/
namespace RichText
variable {φ : Type}
open TextBox

/-- C148: a stretch of text without NUL is selected in a box that is being edited.  Cut and Paste, and Copy and Paste, leave the same box behind: the
text and its layout are as they were, nothing is selected, and the cursor is at the end of the stretch. -/
theorem C148_put_back_partial {e : BoxEnv φ} (hg : e.Good) {s : TextBox φ} (h : Sound e s) (hf : s.focused = true) (he : s.editable = true) {c : Cursor}
    (hsel : s.sel = some c) (hne : c.1 ≠ s.cursor.1) (hnul : (0 : UInt8) ∉ s.text) :
    ∃ s', run e s [.cut, .paste] = some s' ∧ run e s [.copy, .paste] = some s' ∧ Sound e s' ∧ s'.text = s.text ∧ s'.ctrl = s.ctrl ∧
      s'.layout = s.layout ∧ s'.sel = none ∧ s'.cursor.1 = max c.1 s.cursor.1 := by
  have hp : s.showsRich = false := by simp [showsRich, hf, he]
  have hsh := shown_plain (e := e) hp
  have hcur := h.cursor
  have hse := h.sel c hsel
  rw [hsh] at hcur hse
  -- what is copied
  obtain ⟨sc, hsc⟩ : ∃ sc : TextBox φ, sc = { s with clip := some ((s.text.take (max c.1 s.cursor.1)).drop (min c.1 s.cursor.1)) } := ⟨_, rfl⟩
  have hcopy : TextBox.copy s = some sc := by
    simp only [TextBox.copy, hsel, hne, if_false]
    rw [if_pos (by omega), takeWhile_all _ _ (fun b hb => by
      have := List.mem_of_mem_drop (List.mem_of_mem_take hb)
      simp only [ne_eq, decide_eq_true_eq]
      rintro rfl
      exact hnul this), ← List.drop_take, hsc, hsel]
  have hSc : Sound e sc := by rw [hsc]; exact ⟨h.mode, h.ctrl, h.small, h.cursor, h.sel, h.laid⟩
  have hcol : sc.sel ≠ some sc.cursor := by
    rw [hsc]
    show s.sel ≠ some s.cursor
    rw [hsel]
    intro h0
    exact hne (congrArg Prod.fst (Option.some.inj h0))
  -- what is left when it is removed
  obtain ⟨s1, r1, r2, r3, r4, r5⟩ := removeHighlighted_sound hg hSc (by rw [hsc]; exact hp)
  obtain ⟨⟨a, b, -, q2, q3, q4, q5⟩, -, m2, -, m4⟩ := removeHighlighted_fields hcol r1
  have hsc2 : sc.sel = some c ∧ sc.cursor = s.cursor ∧ sc.text = s.text ∧ sc.focused = true ∧ sc.editable = true := by
    rw [hsc]; exact ⟨hsel, rfl, rfl, hf, he⟩
  obtain ⟨rfl, rfl⟩ := q2 c hsc2.1
  rw [hsc2.2.1, hsc2.2.2.1] at q3
  rw [hsc2.2.1] at q4
  rw [hsc2.2.2.2.1] at m4
  rw [hsc2.2.2.2.2] at m2
  have hE : Editing e s1 := ⟨r2, m4, m2, q5⟩
  have hclip : s1.clip = some ((s.text.take (max c.1 s.cursor.1)).drop (min c.1 s.cursor.1)) := by rw [r4, hsc]
  have hl : ((s.text.take (max c.1 s.cursor.1)).drop (min c.1 s.cursor.1)).length = max c.1 s.cursor.1 - min c.1 s.cursor.1 := by
    rw [List.length_drop, List.length_take]; omega
  have hlen : s1.text.length + (max c.1 s.cursor.1 - min c.1 s.cursor.1) = s.text.length := by
    rw [q3]
    simp only [List.append_nil, List.length_append, List.length_take, List.length_drop]
    omega
  obtain ⟨s', p1, p2, p3, p4⟩ := hE.paste hg hclip (by rw [hl, hlen]; exact h.small)
  have htext : s'.text = s.text := by
    rw [p3, q4, q3]
    simp only [List.append_nil, List.length_nil, Nat.add_zero]
    have h1 : (s.text.take (min c.1 s.cursor.1)).length = min c.1 s.cursor.1 := by rw [List.length_take]; omega
    rw [List.take_left' h1, List.drop_left' h1]
    have h2 : s.text.take (min c.1 s.cursor.1) = (s.text.take (max c.1 s.cursor.1)).take (min c.1 s.cursor.1) := by
      rw [List.take_take]; congr 1; omega
    rw [h2, List.take_append_drop, List.take_append_drop]
  have hshow : s'.shown e = s.shown e := by rw [p2.shown, hsh, htext]
  have hrich : s'.showsRich = false := by simp [showsRich, p2.focused, p2.editable]
  have hne' : s.shown e ≠ [] := by
    rw [hsh]
    intro h0
    rw [h0] at hcur hse
    simp only [List.length_nil, Nat.le_zero] at hcur hse
    omega
  have hpaste : handle e sc .paste = some s' := by
    have q := p1
    simp only [handle, hE.focused, if_true, key, TextBox.paste, hE.editable, Bool.not_true, Bool.false_eq_true, if_false, removeHighlighted, hE.sel] at q
    simp only [handle, hsc2.2.2.2.1, if_true, key, TextBox.paste, hsc2.2.2.2.2, Bool.not_true, Bool.false_eq_true, if_false, r1]
    exact q
  refine ⟨s', ?_, ?_, p2.sound, htext, ?_, ?_, p2.sel, ?_⟩
  · have h1 : handle e s .cut = some s1 := by
      simp only [handle, hf, if_true, key, TextBox.cut, he, Bool.not_true, Bool.false_eq_true, if_false, hcopy, r1]
    simp [run, h1, p1]
  · have h1 : handle e s .copy = some sc := by simp only [handle, hf, if_true, key, hcopy]
    simp [run, h1, hpaste]
  · rw [p2.sound.ctrl, hshow, h.ctrl]
  · rw [(p2.sound.laid (by rw [hshow]; exact hne')).1, (h.laid hne').1, hrich, hp, htext]
  · rw [p4, q4, hl]
    simp only [List.length_nil]
    omega

/-! The hypotheses are met: "abcd" with `bc` selected forwards or backwards, and with everything selected. -/

example : (run marksBox {} (typeAbcd ++ [.press 5 2 false 0, .move 15 2, .release])).map (fun s => (s.text, s.sel.map (·.1), s.cursor.1)) =
      some (b!"abcd", some 1, 3) ∧
    (run marksBox {} (typeAbcd ++ [.press 5 2 false 0, .move 15 2, .release, .cut, .paste])).map (fun s => (s.text, s.cursor.1)) = some (b!"abcd", 3) ∧
    (run marksBox {} (typeAbcd ++ [.press 15 2 false 0, .move 5 2, .release, .copy, .paste])).map (fun s => (s.text, s.cursor.1)) = some (b!"abcd", 3) ∧
    (run marksBox {} (typeAbcd ++ [.selectAll, .cut, .paste])).map (fun s => (s.text, s.cursor.1)) = some (b!"abcd", 4) := by decide +kernel

/-- C148 is false for a text with NUL: what is behind it in the stretch is lost. -/
theorem C148_nul_violated : ∃ (e : BoxEnv Nat), e.Good ∧
    ((setText e {} (b!"a" ++ [0] ++ b!"bc")).bind fun s => run e s [.focus, .selectAll, .cut, .paste]).map (·.text) = some b!"a" :=
  ⟨marksBox, marksBox_good, by decide +kernel⟩

end RichText
