import Verif.Props.ClickCycle
/-!
C152: what several clicks selected and pointer movements after them.
-/
namespace RichText
variable {φ : Type}
open TextBox

/-- Pointer movements do nothing while the button is up. -/
theorem TextBox.moves_up {e : BoxEnv φ} : ∀ (ms : List (Rat × Rat)) {s : TextBox φ}, s.drag = false → run e s (ms.map fun m => .move m.1 m.2) = some s
  | [], s, _ => by simp [run]
  | m :: ms, s, h => by
    have h1 : handle e s (.move m.1 m.2) = some s := by simp [handle, h]
    simp only [List.map_cons, run, h1]
    exact moves_up ms h

/-- C152 (partial: the pointer does not move while the button is down): what any number of clicks selected stays selected when the button is released,
wherever the pointer goes then, and the text is left as it is. -/
theorem C152_released_partial {e : BoxEnv φ} (hg : e.Good) {s : TextBox φ} (h : Sound e s) (hf : s.focused = true) (hne : s.shown e ≠ []) (x y : Rat)
    (shift : Bool) (clicks : Nat) (ms : List (Rat × Rat)) :
    ∃ s1 s', handle e s (.press x y shift clicks) = some s1 ∧
      run e s (.press x y shift clicks :: .release :: ms.map fun m => .move m.1 m.2) = some s' ∧
      s'.sel = s1.sel ∧ s'.cursor = s1.cursor ∧ s'.text = s.text := by
  obtain ⟨s1, h1, -⟩ := handle_sound hg h (i := .press x y shift clicks) ⟨.inl hne, nofun, nofun, h.small⟩
  obtain ⟨-, -, -, -, -, -, -, c5, -⟩ := C64_click hf h1
  have hf1 : s1.focused = true := by rw [c5]; exact hf
  have h2 : handle e s1 .release = some { s1 with drag := false } := by simp [handle, hf1]
  refine ⟨s1, { s1 with drag := false }, h1, ?_, rfl, rfl, by rw [c5]⟩
  simp only [run, h1, h2]
  exact moves_up ms rfl

/-- What a movement after a press does to the selection. -/
theorem TextBox.press_move {e : BoxEnv φ} (hg : e.Good) {s : TextBox φ} (h : Sound e s) (hf : s.focused = true) (hne : s.shown e ≠ []) (x y x' y' : Rat)
    (shift : Bool) (clicks : Nat) {s1 : TextBox φ} (h1 : handle e s (.press x y shift clicks) = some s1) {a : Cursor} (ha : s1.sel = some a) {p : Cursor}
    (hp : s.place e x' y' = some p) :
    ∃ s', run e s [.press x y shift clicks, .move x' y'] = some s' ∧ s'.sel = some a ∧ s'.cursor = p := by
  obtain ⟨s1', h1', h2⟩ := handle_sound hg h (i := .press x y shift clicks) ⟨.inl hne, nofun, nofun, h.small⟩
  rw [h1] at h1'
  cases h1'
  obtain ⟨-, -, -, -, -, -, -, c5, -⟩ := C64_click hf h1
  have hf1 : s1.focused = true := by rw [c5]; exact hf
  have hd1 : s1.drag = true := by rw [c5]
  have hsh : s1.shown e = s.shown e := by rw [c5]; rfl
  have hs1 : Sound e s1 := h2.resolve_right fun h => by
    have := h.mode.2.2
    rw [hf1] at this
    cases this
  obtain ⟨s2, m1, -, -, m4, m5⟩ := toMouse_place hg hs1 (by rw [hsh]; exact hne) x' y' true
  have hp1 : s1.place e x' y' = some p := by rw [c5]; exact hp
  rw [hp1] at m4
  cases m4
  have h3 : handle e s1 (.move x' y') = some s2 := by simp [handle, hf1, hd1, m1]
  refine ⟨s2, by simp only [run, h1, h3], ?_, rfl⟩
  rw [m5, ha]
  rfl

/-- C152 is false while the button is down: a double click inside a word selects the word, but the least movement of the pointer, even to the same
point, leaves only the part of the word before the pointer selected. -/
theorem C152_word_violated {e : BoxEnv φ} (hg : e.Good) {s : TextBox φ} (h : Sound e s) (hf : s.focused = true) (hne : s.shown e ≠ []) (x y : Rat)
    (shift : Bool) {clicks : Nat} (hk : clicks % 4 = 1) {B : Nat → Prop} (hB : Breaks (e.breaks s.ctrl) B) {p : Cursor} (hp : s.place e x y = some p)
    {w v : Nat} (hw : IsWord (e.breaks s.ctrl) B w v) (h1 : w < p.1) (h2 : p.1 < v) :
    ∃ s1 s', handle e s (.press x y shift clicks) = some s1 ∧ s1.sel = some (w, .default) ∧ v ≤ s1.cursor.1 ∧
      run e s [.press x y shift clicks, .move x y] = some s' ∧ s'.sel = some (w, .default) ∧ s'.cursor = p ∧ s'.cursor.1 < v := by
  obtain ⟨s1, d1, -, -, d4, d5, -⟩ := C147_word_partial hg h hf hne x y shift hk hB hp hw h1 (Nat.le_of_lt h2)
  obtain ⟨s', m1, m2, rfl⟩ := press_move hg h hf hne x y x y shift clicks d1 d4 hp
  exact ⟨s1, s', d1, d4, d5, m1, m2, rfl, h2⟩

/-- C152 is false while the button is down: the fourth click selects the whole text, but after the least movement of the pointer only what is before
the pointer is selected. -/
theorem C152_all_violated {e : BoxEnv φ} (hg : e.Good) {s : TextBox φ} (h : Sound e s) (hf : s.focused = true) (hne : s.shown e ≠ []) (x y : Rat)
    (shift : Bool) {clicks : Nat} (hk : clicks % 4 = 3) {p : Cursor} (hp : s.place e x y = some p) (h1 : p.1 < s.ctrl.length) :
    ∃ s1 s', handle e s (.press x y shift clicks) = some s1 ∧ s1.sel.map (·.1) = some 0 ∧ s1.cursor.1 = s.ctrl.length ∧
      run e s [.press x y shift clicks, .move x y] = some s' ∧ s'.sel = s1.sel ∧ s'.cursor = p ∧ s'.cursor.1 < s.ctrl.length := by
  obtain ⟨s1, d1, -⟩ := handle_sound hg h (i := .press x y shift clicks) ⟨.inl hne, nofun, nofun, h.small⟩
  obtain ⟨-, -, -, -, -, -, -, -, -, -, -, c9⟩ := C64_click hf d1
  obtain ⟨e1, e2⟩ := c9 hk
  obtain ⟨a, ha⟩ : ∃ a, s1.sel = some a := by
    cases hs : s1.sel with
    | none => rw [hs] at e1; cases e1
    | some a => exact ⟨a, rfl⟩
  obtain ⟨s', m1, m2, m3⟩ := press_move hg h hf hne x y x y shift clicks d1 ha hp
  exact ⟨s1, s', d1, e1, e2, m1, m2.trans ha.symm, m3, by rw [m3]; exact h1⟩

/-! The hypotheses are met: "ab cd e", two and four clicks between `c` and `d`, with and without a movement before the button is released. -/

example : IsWord (marksEnv b!"ab cd e") (fun k => k ≤ 7 ∧ marksBoundary b!"ab cd e" k = true) 3 5 ∧
    (run marksBox {} (typeWords ++ [.press 20 2 false 1, .release, .move 20 2, .move 3 2])).map (fun s => (s.sel.map (·.1), s.cursor.1)) =
      some (some 3, 6) ∧
    (run marksBox {} (typeWords ++ [.press 20 2 false 1, .move 20 2])).map (fun s => (s.sel.map (·.1), s.cursor.1)) = some (some 3, 4) ∧
    (run marksBox {} (typeWords ++ [.press 20 2 false 3, .move 20 2])).map (fun s => (s.sel.map (·.1), s.cursor.1)) = some (some 0, 4) :=
  ⟨typeWords_word, by decide +kernel, by decide +kernel, by decide +kernel⟩

end RichText
