import Verif.Props.Move
/-!
C146: pasting a text is typing it.
-/
namespace RichText
variable {φ : Type}
namespace TextBox

/-- What `recalc_text` makes of a text that is shown as it is and not empty does not depend on what was shown before. -/
theorem recalc_over {e : BoxEnv φ} (s : TextBox φ) (ctrl : Bytes) (L : Layout φ) (info : Layout.CursorInfo) (hp : s.showsRich = false)
    (hne : s.text ≠ []) : recalc e { s with ctrl := ctrl, layout := L, info := info } = recalc e s := by
  have h1 : ({ s with ctrl := ctrl, layout := L, info := info } : TextBox φ).showsRich = false := hp
  unfold recalc
  simp only [h1, hp, Bool.false_eq_true, if_false, hne]

/-- Two texts inserted one behind the other. -/
theorem insert_insert {e : BoxEnv φ} {s s1 : TextBox φ} {a b : Bytes} (hp : s.showsRich = false) (hc : s.cursor.1 ≤ s.text.length) (ha : a ≠ [])
    (h : insertText e s a s.cursor.1 = some s1) : insertText e s1 b s1.cursor.1 = insertText e s (a ++ b) s.cursor.1 := by
  have hf := insertText_fields h
  have key : ∀ (s : TextBox φ) (t : Bytes) , s.cursor.1 ≤ s.text.length → insertText e s t s.cursor.1 =
      recalc e { s with cursor := (s.cursor.1 + t.length, .default), text := s.text.take s.cursor.1 ++ t ++ s.text.drop s.cursor.1 } := by
    intro s t hc
    unfold insertText setText
    simp only
    split
    · rfl
    · rename_i hlt
      have hle : s.text.length ≤ s.cursor.1 := by omega
      rw [List.take_of_length_le hle, List.drop_of_length_le hle, List.append_nil]
  have hl : (s.text.take s.cursor.1).length = s.cursor.1 := by rw [List.length_take]; omega
  have hc1 : s1.cursor.1 ≤ s1.text.length := by
    rw [hf]
    simp only [List.length_append, List.length_drop, hl]
    omega
  rw [key s1 b hc1, key s (a ++ b) hc, hf]
  simp only
  rw [List.take_left' (by rw [List.length_append, hl]), List.drop_left' (by rw [List.length_append, hl])]
  have := recalc_over (e := e) { s with cursor := (s.cursor.1 + (a ++ b).length, .default), text := s.text.take s.cursor.1 ++ (a ++ b) ++ s.text.drop s.cursor.1 }
    s1.ctrl s1.layout s1.info hp (by simp [ha])
  rw [← this]
  simp [Nat.add_assoc, List.append_assoc]

/-- Typing a sequence of characters with nothing selected. -/
theorem Editing.typed_insert {e : BoxEnv φ} (hg : e.Good) : ∀ (cs : List Nat) {s : TextBox φ}, Editing e s → cs ≠ [] →
    s.text.length + 4 * cs.length < e.limit → run e s (cs.map .char) = insertText e s (cs.flatMap utf8Encode) s.cursor.1
  | [], _, _, h, _ => absurd rfl h
  | [c], s, h, _, hl => by
    obtain ⟨s', h1, -⟩ := h.type hg c (by simpa using hl)
    have h3 := h1
    simp only [handle, h.focused, h.editable, Bool.and_self, if_true, insertTyped, removeHighlighted, h.sel] at h3
    simp [run, h1, h3]
  | c :: d :: cs, s, h, _, hl => by
    simp only [List.length_cons] at hl
    obtain ⟨s1, h1, h2, h4, h5, -⟩ := h.type hg c (by omega)
    have h3 := h1
    simp only [handle, h.focused, h.editable, Bool.and_self, if_true, insertTyped, removeHighlighted, h.sel] at h3
    have hle := utf8Encode_length c
    have hlen := typedInto_length c h.cursor
    have ih := typed_insert hg (d :: cs) h2 (by simp) (by rw [h4, hlen]; simp only [List.length_cons]; omega)
    rw [List.map_cons, run, h1]
    simp only
    rw [ih, List.flatMap_cons (x := c)]
    exact insert_insert (by simp [showsRich, h.focused, h.editable]) h.cursor (fun h0 => by have := utf8Encode_pos c; rw [h0] at this; simp at this) h3

end TextBox

open TextBox

/-- C146: pasting a text that is not empty into a text box, over what is selected or where the cursor is, leaves the box in the same state as typing
its characters: text, cursor, layout and caret.  Missing from the full statement: a selection of length 0 (`hcol`), for which it is false
(`C146_violated`). -/
theorem C146_pasted_partial {e : BoxEnv φ} (hg : e.Good) {s : TextBox φ} (h : Sound e s) (hf : s.focused = true) (he : s.editable = true)
    (hcol : s.sel ≠ some s.cursor) (cs : List Nat) (hne : cs ≠ []) (hclip : s.clip = some (cs.flatMap utf8Encode))
    (hl : s.text.length + 4 * cs.length < e.limit) : ∃ s', run e s [.paste] = some s' ∧ run e s (cs.map .char) = some s' ∧ Editing e s' := by
  have hp : s.showsRich = false := by simp [showsRich, hf, he]
  obtain ⟨s1, h1, h2, h3, h4, h5⟩ := removeHighlighted_sound hg h hp
  obtain ⟨⟨x, y, -, -, -, -, r5⟩, -, m2, -, m4⟩ := removeHighlighted_fields hcol h1
  have hE : Editing e s1 := ⟨h2, m4.trans hf, m2.trans he, r5⟩
  have hlen : (cs.flatMap utf8Encode).length ≤ 4 * cs.length := by
    clear hne hclip hl
    induction cs with
    | nil => simp
    | cons c cs ih =>
      have := utf8Encode_length c
      rw [List.flatMap_cons, List.length_append, List.length_cons]; omega
  obtain ⟨s', p1, p2, -⟩ := hE.paste hg (h4.trans hclip) (by omega)
  have hpaste : handle e s .paste = some s' := by
    have q := p1
    simp only [handle, hE.focused, if_true, key, TextBox.paste, hE.editable, Bool.not_true, Bool.false_eq_true, if_false, removeHighlighted, hE.sel] at q
    simp only [handle, hf, if_true, key, TextBox.paste, he, Bool.not_true, Bool.false_eq_true, if_false, h1]
    exact q
  refine ⟨s', by simp [run, hpaste], ?_, p2⟩
  have htyped : run e s (cs.map .char) = run e s1 (cs.map .char) := by
    cases cs with
    | nil => exact absurd rfl hne
    | cons c cs =>
      simp only [List.map_cons, run, handle, hf, he, hE.focused, hE.editable, Bool.and_self, if_true, insertTyped, h1]
      rw [show removeHighlighted e s1 = some s1 by simp only [removeHighlighted, hE.sel]]
  rw [htyped, hE.typed_insert hg cs hne (by omega)]
  have q := p1
  simp only [handle, hE.focused, if_true, key, TextBox.paste, hE.editable, Bool.not_true, Bool.false_eq_true, if_false, removeHighlighted, hE.sel,
    h4.trans hclip] at q
  exact q

/-- "abxy" typed, `xy` selected with the pointer and copied. -/
def copyXy : List Input := [.focus, .char 97, .char 98, .char 120, .char 121, .press 10 2 false 0, .move 20 2, .release, .copy]

/-! The hypotheses are met: `xy` pasted or typed between `a` and `b`, over `ab`, and over itself, which is still selected. -/

example : (run marksBox {} copyXy).map (fun s => (s.clip, s.focused, s.editable, s.text.length)) = some (some ([120, 121].flatMap utf8Encode), true, true, 4) ∧
    (run marksBox {} copyXy).map (fun s => (s.cursor.1, s.sel.map (·.1))) = some (4, some 2) := by decide +kernel

example : (run marksBox {} (copyXy ++ [.press 5 2 false 0, .release, .paste])).map (fun s => (s.text, s.cursor.1)) = some (b!"axybxy", 3) ∧
    (run marksBox {} (copyXy ++ [.press 5 2 false 0, .release, .char 120, .char 121])).map (fun s => (s.text, s.cursor.1)) = some (b!"axybxy", 3) ∧
    (run marksBox {} (copyXy ++ [.press 0 2 false 0, .move 10 2, .release, .paste])).map (fun s => (s.text, s.cursor.1)) = some (b!"xyxy", 2) ∧
    (run marksBox {} (copyXy ++ [.press 0 2 false 0, .move 10 2, .release, .char 120, .char 121])).map (fun s => (s.text, s.cursor.1)) = some (b!"xyxy", 2) ∧
    (run marksBox {} (copyXy ++ [.paste])).map (fun s => (s.text, s.cursor.1)) = some (b!"abxy", 4) := by decide +kernel

/-- C146 is false after a click during which the pointer moved without leaving the place: the paste keeps both characters, typing loses the first. -/
theorem C146_violated : ∃ (e : BoxEnv Nat), e.Good ∧
    (run e {} (copyXy ++ [.press 5 2 false 0, .move 5 2, .release, .paste])).map (·.text) = some b!"axybxy" ∧
    (run e {} (copyXy ++ [.press 5 2 false 0, .move 5 2, .release, .char 120, .char 121])).map (·.text) = some b!"aybxy" :=
  ⟨marksBox, marksBox_good, by decide +kernel, by decide +kernel⟩

end RichText
