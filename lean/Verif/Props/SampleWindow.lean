import Verif.Model.SampleWindow
import Mathlib.Tactic.Ring
import Mathlib.Tactic.FieldSimp
import Mathlib.Tactic.Linarith
/-!
C113: the window's objects after it is resized, and what is under the pointer.
-/
namespace RichText
open SampleWindow

theorem SampleWindow.onResize_pos (s : SampleWindow) (w h : Int) :
    (s.onResize w h).box.x = s.box.x ∧ (s.onResize w h).box.y = s.box.y ∧ (s.onResize w h).bar.x = s.bar.x ∧
      (s.onResize w h).bar.y = s.bar.y := ⟨rfl, rfl, rfl, rfl⟩

theorem SampleWindow.resized_eq (w h : Int) (l : List (Int × Int)) :
    (start w h).resized l =
      { view := ((w, h) :: l).getLast (by simp)
        container := ((((w, h) :: l).getLast (by simp)).1, (((w, h) :: l).getLast (by simp)).2)
        box := ⟨10, 20, (((w, h) :: l).getLast (by simp)).1 - 20, (((w, h) :: l).getLast (by simp)).2 - 10⟩
        bar := ⟨0, 0, (((w, h) :: l).getLast (by simp)).1, 20⟩ } := by
  have gen : ∀ (l : List (Int × Int)) (p : Int × Int) (s : SampleWindow), s.box.x = 10 → s.box.y = 20 → s.bar.x = 0 → s.bar.y = 0 →
      (s.onResize p.1 p.2).resized l =
      { view := (p :: l).getLast (by simp)
        container := (((p :: l).getLast (by simp)).1, ((p :: l).getLast (by simp)).2)
        box := ⟨10, 20, ((p :: l).getLast (by simp)).1 - 20, ((p :: l).getLast (by simp)).2 - 10⟩
        bar := ⟨0, 0, ((p :: l).getLast (by simp)).1, 20⟩ } := by
    intro l
    induction l with
    | nil =>
      intro p s h1 h2 h3 h4
      simp only [resized, List.foldl_nil, onResize, h1, h2, h3, h4, inset, barHeight, List.getLast_singleton]
      norm_num
    | cons q t ih =>
      intro p s h1 h2 h3 h4
      exact ih q (s.onResize p.1 p.2) h1 h2 h3 h4
  exact gen l (w, h) _ rfl rfl rfl rfl

/-- C113, what holds: however often the window is resized, with the last size (`width`, `height`) the viewport and the container
are as large, the tool bar covers the first 20 pixels, and the text box begins under it, 10 pixels from both sides; it is
as wide as 20 pixels less than the window, and text is broken at that width if it is positive.  Missing: where it ends
(`C113_bottom_violated`), windows 20 pixels wide or less (`C113_narrow_violated`). -/
theorem C113_layout_partial (w h : Int) (l : List (Int × Int)) (width height : Int)
    (hl : ((w, h) :: l).getLast (by simp) = (width, height)) (hw : 20 < width) :
    let s := (start w h).resized l
    s.view = (width, height) ∧ s.container = ((width : Rat), (height : Rat)) ∧ s.bar = ⟨0, 0, width, 20⟩ ∧
      s.box.x = 10 ∧ s.box.x + s.box.width = width - 10 ∧ 0 < s.box.width ∧ s.box.y = s.bar.y + s.bar.height ∧
      s.areaWidth = 64 * (width - 20) ∧ 0 < s.areaWidth := by
  intro s
  have e : s = _ := resized_eq w h l
  rw [hl] at e
  rw [e]
  have hq : (20 : Rat) < width := by exact_mod_cast hw
  have ha : areaWidth ⟨(width, height), ((width : Rat), (height : Rat)), ⟨10, 20, width - 20, height - 10⟩, ⟨0, 0, width, 20⟩⟩ = 64 * (width - 20) := by
    have : ((width : Rat) - 20) * 64 = ((64 * (width - 20) : Int) : Rat) := by push_cast; ring
    simp only [areaWidth, this, Rat.num_intCast, Rat.den_intCast, Nat.cast_one, Int.tdiv_one]
  refine ⟨rfl, rfl, rfl, rfl, ?_, ?_, ?_, ha, ?_⟩
  · ring
  · linarith
  · norm_num
  · rw [ha]; omega

/-- C113, false: the text box always ends 10 pixels below the window, instead of 10 pixels above its bottom: `on_resize` does not
subtract the height of the tool bar, and it is called at the start. -/
theorem C113_bottom_violated (w h : Int) (l : List (Int × Int)) :
    let s := (start w h).resized l
    s.box.y + s.box.height = s.container.2 + 10 := by
  intro s
  have e : s = _ := resized_eq w h l
  rw [e]
  show (20 : Rat) + (_ - 10) = _ + 10
  ring

/-- C113, false: in a window 20 pixels wide the text is not broken into lines at all (`textAreaWidth == 0`,
src/layout_builder.cpp:290-297), and in narrower ones (GLFW reports 0 for minimised ones) it is laid out for a negative width. -/
theorem C113_narrow_violated (w h : Int) (l : List (Int × Int)) (width height : Int)
    (hl : ((w, h) :: l).getLast (by simp) = (width, height)) (hw : width ≤ 20) :
    let s := (start w h).resized l
    s.areaWidth = 64 * (width - 20) ∧ s.areaWidth ≤ 0 ∧ (s.areaWidth = 0 ↔ width = 20) := by
  intro s
  have e : s = _ := resized_eq w h l
  rw [hl] at e
  have ha : s.areaWidth = 64 * (width - 20) := by
    rw [e]
    have : ((width : Rat) - 20) * 64 = ((64 * (width - 20) : Int) : Rat) := by push_cast; ring
    simp only [areaWidth, this, Rat.num_intCast, Rat.den_intCast, Nat.cast_one, Int.tdiv_one]
  rw [ha]
  exact ⟨rfl, by omega, by omega⟩

/-- Where a point is drawn if the last size was positive. -/
theorem SampleWindow.drawnAt_eq (w h : Int) (l : List (Int × Int)) (width height : Int)
    (hl : ((w, h) :: l).getLast (by simp) = (width, height)) (hw : 0 < width) (hh : 0 < height) (fb : Rat) (p : Pt) :
    ((start w h).resized l).drawnAt fb p = (p.1, fb - height + p.2) := by
  rw [resized_eq w h l, hl]
  have h1 : (width : Rat) ≠ 0 := by exact_mod_cast hw.ne'
  have h2 : (height : Rat) ≠ 0 := by exact_mod_cast hh.ne'
  simp only [drawnAt, toWindow, toClip, Prod.mk.injEq]
  constructor
  · field_simp; ring
  · field_simp; ring

/-- C113, what holds: if the framebuffer is as large as the window in screen coordinates (one pixel for each, the content scale is
1), what is drawn under the pointer is the point that is given to the handlers, for every pointer position and however
often the window is resized. -/
theorem C113_pointer_partial (w h : Int) (l : List (Int × Int)) (width height : Int)
    (hl : ((w, h) :: l).getLast (by simp) = (width, height)) (hw : 0 < width) (hh : 0 < height) (mouse : Pt) :
    ((start w h).resized l).drawnAt height mouse = mouse := by
  rw [drawnAt_eq w h l width height hl hw hh]
  simp

/-- C113, false: with any other content scale the pointer is not where it seems.  The framebuffer has `scale` times as many pixels,
so the pointer at `mouse` is over the pixel `scale * mouse`; but what is drawn there is given to the handlers only at the
two corners: until the first resize (the container has the size of the window in screen coordinates) everything is
drawn in the lower left part of the window, afterwards (the size of the framebuffer) everything is as large as its
pixels say, while the pointer is given in screen coordinates. -/
theorem C113_scale_violated (w h : Int) (l : List (Int × Int)) (width height : Int)
    (hl : ((w, h) :: l).getLast (by simp) = (width, height)) (hw : 0 < width) (hh : 0 < height)
    (scale fb : Rat) (hs : scale ≠ 1) (mouse : Pt) (hm : 0 < mouse.1) :
    ((start w h).resized l).drawnAt fb mouse ≠ (scale * mouse.1, scale * mouse.2) := by
  rw [drawnAt_eq w h l width height hl hw hh]
  intro he
  have h1 := congrArg Prod.fst he
  simp only at h1
  have h2 : (scale - 1) * mouse.1 = 0 := by linarith
  rcases mul_eq_zero.1 h2 with h3 | h3
  · exact hs (by linarith)
  · linarith

/-! ### Examples -/

/-- The window as it is made. -/
example : ((start 640 480).resized []).box = ⟨10, 20, 620, 470⟩ ∧ ((start 640 480).resized []).areaWidth = 39680 := by decide +kernel

/-- Resized twice, the second time to the width of 20. -/
example : ((start 640 480).resized [(1280, 960), (20, 100)]).box = ⟨10, 20, 0, 90⟩ ∧
    ((start 640 480).resized [(1280, 960), (20, 100)]).areaWidth = 0 := by decide +kernel

/-- A click on the title of the second menu (60 to 100 pixels from the left) on a display with scale 2, after a resize: the pointer is over the pixel 140, but
the handlers get 70. -/
example : ((start 640 480).resized [(1280, 960)]).drawnAt 960 (70, 10) = (70, 10) ∧ ((2 : Rat) * 70, (2 : Rat) * 10) = (140, 20) := by
  decide +kernel

end RichText
