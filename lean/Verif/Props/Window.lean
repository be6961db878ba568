import Verif.Props.ToolBar
/-! The tool bar above the text box (C97). -/
namespace RichText
namespace Window
open TextBox
variable {φ : Type _}

/-- C97: in the window the text box behaves as by itself.  If the inputs that reach the
text box are among those C52 is about, nothing undefined happens, and cursor and selection
stay inside of the text. -/
theorem C97_box_partial {e : BoxEnv φ} (hg : e.Good) : ∀ (evs : List WindowEvent) (w : Window φ), Valid e w.box →
    (∀ pre ev post w' i, evs = pre ++ ev :: post → w.run e pre = some w' → w'.forBox ev = some i → Allowed e w'.box i) →
    ∃ w', w.run e evs = some w' ∧ Valid e w'.box ∧ w'.box.cursor.1 ≤ w'.box.text.length ∧
      ∀ c, w'.box.sel = some c → c.1 ≤ w'.box.text.length
  | [], w, h, _ => ⟨w, rfl, h, h.cursor hg⟩
  | ev :: evs, w, h, hall => by
    obtain ⟨w1, h1, h2⟩ : ∃ w1, w.step e ev = some w1 ∧ Valid e w1.box := by
      have hbox : ∃ s, (match w.forBox ev with | some i => w.box.handle e i | none => some w.box) = some s ∧ Valid e s := by
        cases hi : w.forBox ev with
        | none => exact ⟨_, rfl, h⟩
        | some i => exact handle_valid hg h (hall [] ev evs w i rfl rfl hi)
      obtain ⟨s, hs1, hs2⟩ := hbox
      refine ⟨_, by unfold step; exact congrArg (Option.map _) hs1, ?_⟩
      cases ev <;> exact hs2
    obtain ⟨w', h3, h4⟩ := C97_box_partial hg evs w1 h2 (fun pre ev' post w' i he hr hi =>
      hall (ev :: pre) ev' post w' i (by rw [he]; rfl) (by rw [run, h1]; exact hr) hi)
    exact ⟨w', by rw [run, h1]; exact h3, h4⟩

/-! ### Dragging -/

/-- The box is dragging only while the button is down. -/
def Held (w : Window φ) : Prop := w.box.drag = true → w.down = true ∧ w.box.focused = true

theorem held_step {e : BoxEnv φ} {w w' : Window φ} {ev : WindowEvent} (h : Held w) (hs : w.step e ev = some w')
    (hr : ev = .release → w.bar.hit true w.mouse.1 w.mouse.2 = none) : Held w' := by
  unfold step at hs
  simp only [Option.map_eq_some_iff] at hs
  obtain ⟨s, hs, rfl⟩ := hs
  have hd : w.box.drag = true → w.box.focused = true := fun hh => (h hh).2
  have hkeep : ∀ i, (∀ x y b n, i ≠ .press x y b n) → w.box.handle e i = some s →
      (s.drag = true → w.down = true ∧ s.focused = true) ∧ (i = .release → s.drag = false) ∧ (i = .blur → s.drag = false) := by
    intro i hi hh
    obtain ⟨h1, h2, h3⟩ := handle_keeps hh hi hd
    exact ⟨fun h' => ⟨(h (h1 h').1).1, (h1 h').2⟩, h2, h3⟩
  cases ev with
  | move mx my =>
    simp only [forBox] at hs
    exact (hkeep _ (by simp) hs).1
  | char c =>
    simp only [forBox] at hs
    exact (hkeep _ (by simp) hs).1
  | unfocus =>
    simp only [forBox] at hs
    exact (hkeep _ (by simp) hs).1
  | key i =>
    simp only [forBox] at hs
    split at hs
    · rename_i j hj
      split at hj
      · rename_i hk
        simp only [Option.some.injEq] at hj
        subst hj
        refine (hkeep _ ?_ hs).1
        rintro x y b n rfl
        simp [isKey] at hk
      · exact absurd hj (by simp)
    · simp only [Option.some.injEq] at hs
      subst hs
      exact h
  | release =>
    simp only [forBox, hr rfl, Option.isSome_none, Bool.false_eq_true, if_false] at hs
    intro hh
    have := (hkeep _ (by simp) hs).2.1 rfl
    simp only at hh
    rw [this] at hh
    exact absurd hh (by simp)
  | press shift clicks =>
    simp only [forBox] at hs
    intro hh
    simp only at hh
    refine ⟨rfl, ?_⟩
    have hblur : w.box.handle e .blur = some s → s.focused = true := by
      intro hb
      have := (hkeep _ (by simp) hb).2.2 rfl
      rw [this] at hh
      exact absurd hh (by simp)
    split at hs
    · rename_i i hi
      split at hi
      · simp only [Option.some.injEq] at hi; subst hi
        exact hblur hs
      · split at hi
        · simp only [Option.some.injEq] at hi; subst hi
          exact (press_drags hs).2
        · simp only [Option.some.injEq] at hi; subst hi
          exact hblur hs
    · simp only [Option.some.injEq] at hs
      subst hs
      exact (h hh).2

/-- C97: text is selected by dragging only while the button is down, if no button is
released over a title or over an item of an open menu (`C97_drag_violated`). -/
theorem C97_drag_partial {e : BoxEnv φ} : ∀ (evs : List WindowEvent) {w w' : Window φ}, w.box.drag = false →
    w.run e evs = some w' →
    (∀ pre post w1, evs = pre ++ .release :: post → w.run e pre = some w1 → w1.bar.hit true w1.mouse.1 w1.mouse.2 = none) →
    w'.box.drag = true → w'.down = true := by
  have main : ∀ (evs : List WindowEvent) {w w' : Window φ}, Held w → w.run e evs = some w' →
      (∀ pre post w1, evs = pre ++ .release :: post → w.run e pre = some w1 → w1.bar.hit true w1.mouse.1 w1.mouse.2 = none) → Held w' := by
    intro evs
    induction evs with
    | nil =>
      intro w w' h hr _
      simp only [run, Option.some.injEq] at hr
      exact hr ▸ h
    | cons ev evs ih =>
      intro w w' h hr hall
      rw [run] at hr
      cases h1 : w.step e ev with
      | none => rw [h1] at hr; exact absurd hr (by simp)
      | some w1 =>
        rw [h1] at hr
        refine ih (held_step h h1 fun hev => hall [] evs w (by rw [hev]; rfl) rfl) hr fun pre post w2 he hrun => ?_
        exact hall (ev :: pre) post w2 (by rw [he]; rfl) (by rw [run, h1]; exact hrun)
  intro evs w w' h hr hall hd
  exact (main evs (fun hh => absurd hh (by simp [h])) hr hall hd).1

/-- A window of 640 by 480 with the text "abcd" being edited. -/
def demo : Option (Window Nat) :=
  (TextBox.run monoEnv {} [.focus, .char 97, .char 98, .char 99, .char 100]).map fun s =>
    ({ bar := ToolBar.sample 640, box := s, boxW := 0, boxH := 0 } : Window Nat).resize 640 480

/-- Dragging inside of the text selects it, until the button is released. -/
example : (demo.bind fun w => w.run monoEnv [.move 11 25, .press false 0, .move 20 25, .release, .move 30 25]).map
    (fun w => (w.down, w.box.drag, w.box.sel, w.box.cursor)) = some (false, false, some (0, .default), (2, .default)) := by decide +kernel

/-- C97 is violated: a button released over a title does not reach the text box, which
goes on selecting text when the mouse is moved without a button. -/
theorem C97_drag_violated :
    (demo.bind fun w => w.run monoEnv [.move 11 25, .press false 0, .move 30 10, .release]).map
      (fun w => (w.down, w.box.drag)) = some (false, true) ∧
    (demo.bind fun w => w.run monoEnv [.move 11 25, .press false 0, .move 30 10, .release, .move 20 25]).map
      (fun w => (w.down, w.box.sel, w.box.cursor.1)) = some (false, some (0, .default), 2) ∧
    (demo.bind fun w => w.run monoEnv [.move 11 25, .press false 0, .move 30 10, .release, .move 26 25]).map
      (fun w => (w.down, w.box.sel, w.box.cursor.1)) = some (false, some (0, .default), 3) := by decide +kernel

/-! ### Keys -/

/-- C97: a key reaches the text box if the mouse is inside of it. -/
theorem C97_keys_partial (e : BoxEnv φ) (w : Window φ) (i : Input) (hk : isKey i = true)
    (hx : w.boxX ≤ w.mouse.1 ∧ w.mouse.1 ≤ w.boxX + w.boxW) (hy : w.boxY ≤ w.mouse.2 ∧ w.mouse.2 ≤ w.boxY + w.boxH) :
    w.step e (.key i) = (w.box.handle e i).map fun s => { w with box := s } := by
  have : w.insideBox = true := by
    unfold insideBox
    rw [mouseInside_iff]
    obtain ⟨a1, a2⟩ := hx
    obtain ⟨a3, a4⟩ := hy
    refine ⟨a1, a3, ?_, ?_⟩ <;> linarith
  unfold step forBox
  simp only [this, hk, Bool.and_true, if_true]

/-- C97 is violated: with the mouse anywhere else, no key reaches a text box, not even
one that has the focus; typed characters do. -/
theorem C97_keys_violated (e : BoxEnv φ) (w : Window φ) (i : Input) (hy : w.mouse.2 < w.boxY) :
    w.step e (.key i) = some w ∧ ∀ c, w.step e (.char c) = (w.box.handle e (.char c)).map fun s => { w with box := s } := by
  have : w.insideBox = false := by
    cases h : w.insideBox with
    | false => rfl
    | true =>
      unfold insideBox at h
      rw [mouseInside_iff] at h
      exact absurd h.2.1 (not_le.mpr hy)
  refine ⟨?_, fun c => rfl⟩
  unfold step forBox
  simp only [this, Bool.false_and, Bool.false_eq_true, if_false, Option.map_some]

/-- With the mouse over the tool bar "e" can be typed, but not removed again. -/
example : (demo.bind fun w => w.run monoEnv [.move 300 10, .char 101, .key (.backspace false)]).map (·.box.text) = some b!"abcde" ∧
    (demo.bind fun w => w.run monoEnv [.move 300 30, .char 101, .key (.backspace false)]).map (·.box.text) = some b!"abcd" := by
  decide +kernel

/-! ### Places -/

/-- C97 is violated: the text box reaches ten pixels below the window, in every window. -/
theorem C97_size_violated (w : Window φ) (hy : w.boxY = 20) (width height : Rat) :
    (w.resize width height).boxY + (w.resize width height).boxH = height + 10 := by
  simp only [resize, hy]
  ring

/-- The text box keeps ten pixels distance from the sides of the window. -/
theorem C97_margins (w : Window φ) (hx : w.boxX = 10) (width height : Rat) :
    (w.resize width height).boxX + (w.resize width height).boxW = width - 10 ∧ (w.resize width height).bar.width = width := by
  refine ⟨?_, rfl⟩
  simp only [resize, hx]
  ring

/-- C97 is violated: a press on the frame of an open tray, which is shown above the text,
goes to the text below it. -/
theorem C97_tray_violated :
    (demo.bind fun w => w.run monoEnv [.move 70 10, .press false 0, .release, .move 61 30]).map (fun w =>
      (w.bar.menus.map (fun m => (m.trayVisible && decide (m.x ≤ w.mouse.1 ∧ w.mouse.1 ≤ m.x + 171 ∧ 20 ≤ w.mouse.2 ∧ w.mouse.2 ≤ 20 + m.trayHeight))),
        w.box.focused)) = some ([false, true], false) ∧
    (demo.bind fun w => w.run monoEnv [.move 70 10, .press false 0, .release, .move 61 30, .press false 0]).map (fun w =>
      (w.bar.menus.map (·.trayVisible), w.box.focused, w.box.cursor.1)) = some ([false, true], true, 4) := by decide +kernel

end Window
end RichText
