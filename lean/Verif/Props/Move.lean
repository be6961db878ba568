import Verif.Props.RichCut
/-!
C145: text moved with the pointer and the clipboard.
-/
namespace RichText
variable {φ : Type}
namespace TextBox

/-- What Cut puts on the clipboard. -/
theorem cut_clip {e : BoxEnv φ} {s s' : TextBox φ} {c : Cursor} (hf : s.focused = true) (he : s.editable = true) (hsel : s.sel = some c)
    (hne : c.1 ≠ s.cursor.1) (h : handle e s .cut = some s') :
    s'.clip = some (((s.text.drop (min c.1 s.cursor.1)).take (max c.1 s.cursor.1 - min c.1 s.cursor.1)).takeWhile (· ≠ 0)) := by
  simp only [handle, hf, if_true, key, TextBox.cut, he, Bool.not_true, Bool.false_eq_true, if_false] at h
  split at h
  · cases h
  · rename_i s1 h1
    have hfields := copy_fields h1
    have hcl := copy_clip hsel hne h1
    have h2 := (removeHighlighted_fields (s := s1) (by
      rw [hfields]
      show s.sel ≠ some s.cursor
      rw [hsel]
      exact fun h0 => hne (congrArg Prod.fst (Option.some.inj h0))) h).2.1
    rw [h2, hcl]

/-- Pasting with nothing selected. -/
theorem Editing.paste {e : BoxEnv φ} (hg : e.Good) {s : TextBox φ} (h : Editing e s) {t : Bytes} (ht : s.clip = some t)
    (hl : s.text.length + t.length < e.limit) :
    ∃ s', handle e s .paste = some s' ∧ Editing e s' ∧ s'.text = s.text.take s.cursor.1 ++ t ++ s.text.drop s.cursor.1 ∧
      s'.cursor.1 = s.cursor.1 + t.length := by
  obtain ⟨s', h1, h2, -⟩ := insertText_sound hg h.sound (by simp [showsRich, h.focused, h.editable]) hl
  have h3 := insertText_fields h1
  refine ⟨s', ?_, ⟨h2, by rw [h3]; exact h.focused, by rw [h3]; exact h.editable, by rw [h3]; exact h.sel⟩, by rw [h3], by rw [h3]⟩
  simp only [handle, h.focused, if_true, key, TextBox.paste, h.editable, Bool.not_true, Bool.false_eq_true, if_false, removeHighlighted, h.sel, ht, h1]

/-- A single click. -/
theorem Editing.click {e : BoxEnv φ} (hg : e.Good) {s : TextBox φ} (h : Editing e s) (hne : s.text ≠ []) (x y : Rat) (clicks : Nat)
    (hc : clicks % 4 = 0) :
    ∃ s', run e s [.press x y false clicks, .release] = some s' ∧ Editing e s' ∧ s.place e x y = some s'.cursor ∧ s'.text = s.text ∧
      s'.clip = s.clip := by
  obtain ⟨s1, a1, a2, a3, a4, a5⟩ := toMouse_place hg h.sound (by rw [h.shown]; exact hne) x y false
  have hf1 : s1.focused = true := by rw [a3]; exact h.focused
  refine ⟨{ s1 with drag := false }, ?_, ⟨⟨a2.mode, a2.ctrl, a2.small, a2.cursor, a2.sel, a2.laid⟩, hf1, ?_, a5⟩, a4, ?_, ?_⟩
  · simp only [run, handle, TextBox.press, h.focused, if_true, a1, clickSelect, hc, hf1]
  · show s1.editable = true; rw [a3]; exact h.editable
  · show s1.text = _; rw [a3]
  · show s1.clip = _; rw [a3]

end TextBox

open TextBox

/-- C145: in a focused text box a stretch is selected with the pointer, though not the whole text, cut, and pasted where the pointer clicks next.
Then the stretch stands there, the rest is as it was, and no byte is lost or added. -/
theorem C145_moved {e : BoxEnv φ} (hg : e.Good) {s : TextBox φ} (h : Sound e s) (hf : s.focused = true) (he : s.editable = true)
    (hnul : (0 : UInt8) ∉ s.text) (x y : Rat) (clicks : Nat) (hc : clicks % 4 = 0) (ms : List (Rat × Rat)) (x' y' : Rat) (p q : Cursor)
    (hp : s.place e x y = some p) (hq : s.place e x' y' = some q) (hpq : p.1 ≠ q.1)
    (hrest : s.text.take (min p.1 q.1) ++ s.text.drop (max p.1 q.1) ≠ []) (x'' y'' : Rat) (clicks' : Nat) (hc' : clicks' % 4 = 0) :
    ∃ s1 r s', run e s (.press x y false clicks :: (ms.map (fun m => .move m.1 m.2) ++ [.move x' y', .release]) ++ [.cut]) = some s1 ∧
      s1.text = s.text.take (min p.1 q.1) ++ s.text.drop (max p.1 q.1) ∧ s1.place e x'' y'' = some r ∧ r.1 ≤ s1.text.length ∧
      run e s1 [.press x'' y'' false clicks', .release, .paste] = some s' ∧ Editing e s' ∧
      s'.text = s1.text.take r.1 ++ (s.text.take (max p.1 q.1)).drop (min p.1 q.1) ++ s1.text.drop r.1 ∧
      s'.text.Perm s.text := by
  have hsh := shown_plain (e := e) (s := s) (by simp [showsRich, hf, he])
  have hne : s.shown e ≠ [] := by
    rw [hsh]
    intro h0
    rw [h0] at hrest
    simp at hrest
  obtain ⟨d, p', q', a1, a2, a3, a4, a5, a6, a7, a8, a9, -⟩ := dragged hg h hf hne x y clicks hc ms x' y'
  rw [hp] at a3; cases a3
  rw [hq] at a4; cases a4
  have hcur := a2.cursor
  have hse := a2.sel _ a5
  have hshd := shown_plain (e := e) (s := d) (by simp [showsRich, a7, a8, he])
  rw [hshd, a9] at hcur hse
  rw [a6] at hcur
  obtain ⟨s1, b1, b2, -, b4⟩ := removes hg a2 a7 (a8.trans he) a5 (by rw [a6]; intro h0; exact hpq (congrArg Prod.fst h0)) (i := .cut) rfl
  have b5 := cut_clip a7 (a8.trans he) a5 (by rw [a6]; exact hpq) b1
  rw [a6, a9] at b4 b5
  rw [takeWhile_all _ _ (fun b hb => by
    have := List.mem_of_mem_drop (List.mem_of_mem_take hb)
    simp only [ne_eq, decide_eq_true_eq]
    rintro rfl
    exact hnul this), ← List.drop_take] at b5
  obtain ⟨s2, c1, c2, c3, c4, c5⟩ := b2.click hg (by rw [b4]; exact hrest) x'' y'' clicks' hc'
  have hsmall := h.small
  obtain ⟨s3, f1, f2, f3, -⟩ := c2.paste hg (c5.trans b5) (by
    rw [c4, b4]
    simp only [List.length_append, List.length_take, List.length_drop]
    omega)
  refine ⟨s1, s2.cursor, s3, ?_, b4, c3, ?_, ?_, f2, ?_, ?_⟩
  · rw [run_append, a1]
    simp [run, b1]
  · have := c2.cursor; rw [c4] at this; exact this
  · rw [show [Input.press x'' y'' false clicks', .release, .paste] = [.press x'' y'' false clicks', .release] ++ [.paste] from rfl, run_append, c1]
    simp [run, f1]
  · rw [f3, c4]
  · rw [f3, c4, List.append_assoc]
    refine (List.perm_append_comm_assoc _ _ _).trans ?_
    rw [List.take_append_drop, b4]
    refine (List.perm_append_comm_assoc _ _ _).trans (List.Perm.of_eq ?_)
    have e1 : (s.text.take (max p.1 q.1)).drop (min p.1 q.1) ++ s.text.drop (max p.1 q.1) = s.text.drop (min p.1 q.1) := by
      have h1 : s.text.drop (max p.1 q.1) = (s.text.drop (min p.1 q.1)).drop (max p.1 q.1 - min p.1 q.1) := by
        rw [List.drop_drop]; congr 1; omega
      rw [List.drop_take, h1, List.take_append_drop]
    rw [e1, List.take_append_drop]

/-! The hypotheses are met: "abcd", `b` cut and pasted behind `d`, and `cd` cut and pasted in front of `a`. -/

example : (run marksBox {} (typeAbcd ++ [.press 5 2 false 0, .move 10 2, .release, .cut, .press 40 2 false 0, .release, .paste])).map
      (fun s => (s.text, s.cursor.1)) = some (b!"acdb", 4) ∧
    (run marksBox {} (typeAbcd ++ [.press 20 2 false 0, .move 10 2, .release, .cut, .press 0 2 false 0, .release, .paste])).map
      (fun s => (s.text, s.cursor.1)) = some (b!"cdab", 2) := by decide +kernel

/-- C145 is false for the whole text: when it is cut the old layout stays, a click is looked up in it, and after the paste the cursor is behind the
text.  Backspace then throws (`substr` behind the end of the text). -/
theorem C145_all_violated : ∃ (e : BoxEnv Nat), e.Good ∧
    (run e {} (typeAbcd ++ [.selectAll, .cut, .press 40 2 false 0, .release, .paste])).map (fun s => (s.text, s.cursor.1)) = some (b!"abcd", 8) ∧
    (run e {} (typeAbcd ++ [.selectAll, .cut, .press 40 2 false 0, .release, .paste, .backspace false])).isNone = true :=
  ⟨marksBox, marksBox_good, by decide +kernel, by decide +kernel⟩

end RichText
