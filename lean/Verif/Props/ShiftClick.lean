import Verif.Props.ClickType
/-!
C154: clicks with shift held down.
-/
namespace RichText
variable {φ : Type}
open TextBox
namespace TextBox

/-- A click with shift: the button goes down once and up again. -/
def shiftClick (m : Rat × Rat × Nat) : List Input := [.press m.1 m.2.1 true m.2.2, .release]

theorem shift_click {e : BoxEnv φ} (hg : e.Good) {s : TextBox φ} (h : Sound e s) (hf : s.focused = true) (hne : s.shown e ≠ []) (m : Rat × Rat × Nat)
    (hk : m.2.2 % 4 = 0) :
    ∃ s', run e s (shiftClick m) = some s' ∧ Sound e s' ∧ s' = { s with sel := s'.sel, cursor := s'.cursor, info := s'.info, timer := s'.timer, flash := s'.flash, drag := false } ∧
      s.place e m.1 m.2.1 = some s'.cursor ∧ s'.sel = some (s.sel.getD s.cursor) := by
  obtain ⟨s1, a1, a2, a3, a4, a5⟩ := toMouse_place hg h hne m.1 m.2.1 true
  have hf1 : s1.focused = true := by rw [a3]; exact hf
  refine ⟨{ s1 with drag := false }, ?_, ⟨a2.mode, a2.ctrl, a2.small, a2.cursor, a2.sel, a2.laid⟩, ?_, a4, a5⟩
  · simp only [shiftClick, run, handle, TextBox.press, hf, if_true, a1, clickSelect, hk, hf1]
  · unfold Moved at a3
    rw [a3]

/-- Clicks with shift, the last one of them at `m`. -/
theorem shift_clicks {e : BoxEnv φ} (hg : e.Good) : ∀ (ms : List (Rat × Rat × Nat)) {s : TextBox φ}, Sound e s → s.focused = true → s.shown e ≠ [] →
    (∀ m ∈ ms, m.2.2 % 4 = 0) → ∀ m : Rat × Rat × Nat, m.2.2 % 4 = 0 → ∃ s', run e s ((ms ++ [m]).flatMap shiftClick) = some s' ∧ Sound e s' ∧
      s' = { s with sel := s'.sel, cursor := s'.cursor, info := s'.info, timer := s'.timer, flash := s'.flash, drag := false } ∧
      s.place e m.1 m.2.1 = some s'.cursor ∧ s'.sel = some (s.sel.getD s.cursor)
  | [], s, h, hf, hne, _, m, hk => by
    obtain ⟨s', h1, h2⟩ := shift_click hg h hf hne m hk
    exact ⟨s', by simpa using h1, h2⟩
  | m :: ms, s, h, hf, hne, hms, m', hk => by
    obtain ⟨s1, a1, a2, a3, -, a5⟩ := shift_click hg h hf hne m (hms m (by simp))
    have hf1 : s1.focused = true := by rw [a3]; exact hf
    have hsh : s1.shown e = s.shown e := by rw [a3]; rfl
    obtain ⟨s2, b1, b2, b3, b4, b5⟩ := shift_clicks hg ms a2 hf1 (by rw [hsh]; exact hne) (fun m hm => hms m (by simp [hm])) m' hk
    refine ⟨s2, ?_, b2, ?_, ?_, ?_⟩
    · rw [List.cons_append, List.flatMap_cons, run_append, a1]
      exact b1
    · rw [b3, a3]
    · rw [← b4, a3]; rfl
    · rw [b5, a5]; rfl

end TextBox

/-- C154: in a focused text box with nothing selected, any number of clicks with shift held down select from where the caret was before them to the
last place clicked; copying gives what is between the two, and the text is left as it is. -/
theorem C154_selects {e : BoxEnv φ} (hg : e.Good) {s : TextBox φ} (h : Sound e s) (hf : s.focused = true) (hne : s.shown e ≠ []) (hsel : s.sel = none)
    (hpl : s.showsRich = false) (hnul : (0 : UInt8) ∉ s.text) (ms : List (Rat × Rat × Nat)) (hms : ∀ m ∈ ms, m.2.2 % 4 = 0) (x y : Rat) {k : Nat}
    (hk : k % 4 = 0) {q : Cursor} (hq : s.place e x y = some q) :
    ∃ s', run e s ((ms ++ [(x, y, k)]).flatMap shiftClick) = some s' ∧ s'.sel = some s.cursor ∧ s'.cursor = q ∧ s'.text = s.text ∧
      (s.cursor.1 ≠ q.1 → ∃ s2, handle e s' .copy = some s2 ∧ s2.text = s.text ∧
        s2.clip = some ((s.text.take (max s.cursor.1 q.1)).drop (min s.cursor.1 q.1))) := by
  obtain ⟨s', a1, a2, a3, a4, a5⟩ := shift_clicks hg ms h hf hne hms (x, y, k) hk
  rw [hq] at a4
  cases a4
  rw [hsel] at a5
  have ht : s'.text = s.text := by rw [a3]
  have hf' : s'.focused = true := by rw [a3]; exact hf
  refine ⟨s', a1, a5, rfl, ht, fun hpq => ?_⟩
  have hle := h.cursor
  rw [shown_plain hpl] at hle
  have hcp : handle e s' .copy = some { s' with clip := some (((s'.text.drop (min s.cursor.1 s'.cursor.1)).take
      (max s.cursor.1 s'.cursor.1 - min s.cursor.1 s'.cursor.1)).takeWhile (· ≠ 0)) } := by
    have : min s.cursor.1 s'.cursor.1 ≤ s.text.length := by omega
    simp only [handle, hf', if_true, key, TextBox.copy, a5, Option.getD_none, hpq, if_false, ht, this]
  refine ⟨_, hcp, ht, ?_⟩
  show some _ = some _
  rw [ht, takeWhile_all, List.drop_take]
  intro b hb
  have := List.mem_of_mem_drop (List.mem_of_mem_take hb)
  simp only [ne_eq, decide_eq_true_eq]
  rintro rfl
  exact hnul this

/-- C154 (partial: the place is not that of the caret): what is typed then replaces what is between the two. -/
theorem C154_typed_partial {e : BoxEnv φ} (hg : e.Good) {s : TextBox φ} (h : Editing e s) (hne : s.text ≠ []) (ms : List (Rat × Rat × Nat))
    (hms : ∀ m ∈ ms, m.2.2 % 4 = 0) (x y : Rat) {k : Nat} (hk : k % 4 = 0) {q : Cursor} (hq : s.place e x y = some q) (hcq : s.cursor ≠ q) (c : Nat)
    (cs : List Nat) (hl : s.text.length + 4 * (cs.length + 1) < e.limit) :
    ∃ s', run e s ((ms ++ [(x, y, k)]).flatMap shiftClick ++ (c :: cs).map .char) = some s' ∧ Editing e s' ∧
      s'.text = s.text.take (min s.cursor.1 q.1) ++ (c :: cs).flatMap utf8Encode ++ s.text.drop (max s.cursor.1 q.1) := by
  obtain ⟨s1, a1, a2, a3, a4, a5⟩ := shift_clicks hg ms h.sound h.focused (by rw [h.shown]; exact hne) hms (x, y, k) hk
  rw [hq] at a4
  cases a4
  rw [h.sel] at a5
  have ht : s1.text = s.text := by rw [a3]
  obtain ⟨s2, b1, b2, b3, -⟩ := types_over hg a2 (by rw [a3]; exact h.focused) (by rw [a3]; exact h.editable) a5 hcq c cs (by rw [ht]; exact hl)
  exact ⟨s2, by rw [run_append, a1]; exact b1, b2, by rw [b3, ht]; rfl⟩

/-- C154 is false for a click with shift where the caret is: in every state, of two or more characters typed then the first is lost. -/
theorem C154_same_violated {e : BoxEnv φ} (hg : e.Good) {s : TextBox φ} (h : Editing e s) (hne : s.text ≠ []) (x y : Rat) {k : Nat} (hk : k % 4 = 0)
    (hq : s.place e x y = some s.cursor) (c d : Nat) (cs : List Nat) (hl : s.text.length + 4 * (cs.length + 2) < e.limit) :
    ∃ s', run e s (shiftClick (x, y, k) ++ (c :: d :: cs).map .char) = some s' ∧
      s'.text = s.text.take s.cursor.1 ++ (d :: cs).flatMap utf8Encode ++ s.text.drop s.cursor.1 := by
  obtain ⟨s1, a1, a2, a3, a4, a5⟩ := shift_click hg h.sound h.focused (by rw [h.shown]; exact hne) (x, y, k) hk
  rw [hq] at a4
  have hc : s1.cursor = s.cursor := (Option.some.inj a4).symm
  rw [h.sel] at a5
  have ht : s1.text = s.text := by rw [a3]
  obtain ⟨s2, b1, -, b3⟩ := types_empty hg a2 (by rw [a3]; exact h.focused) (by rw [a3]; exact h.editable) (by rw [a5, hc]; rfl) c (d :: cs)
    (by rw [ht, List.length_cons]; exact hl)
  refine ⟨s2, by rw [run_append, a1]; exact b1, ?_⟩
  rw [b3, hc, ht]
  simp

/-! The hypotheses are met: "abcd" typed, a click before `b`, clicks with shift before `c` and before `d`; and one where the caret is. -/

example : (run marksBox {} (typeAbcd ++ [.press 5 2 false 0, .release] ++ [(10, 2, 0), (15, 2, 0)].flatMap shiftClick ++ [.copy])).map
      (fun s => (s.sel.map (·.1), s.cursor.1, s.clip)) = some (some 1, 3, some b!"bc") ∧
    (run marksBox {} (typeAbcd ++ [.press 5 2 false 0, .release] ++ [(10, 2, 0), (15, 2, 0)].flatMap shiftClick ++ [.char 120, .char 121])).map (·.text) =
      some b!"axyd" ∧
    (run marksBox {} (typeAbcd ++ [.press 5 2 false 0, .release] ++ shiftClick (5, 2, 0) ++ [.char 120, .char 121])).map (·.text) =
      some b!"aybcd" := by decide +kernel

end RichText
