import Verif.Props.TextBox
/-!
C64: what the navigation keys and clicks of the text box do; C65: typed characters
are encoded in UTF-8.
-/
namespace RichText
variable {φ : Type _}
namespace TextBox

/-- `s'` is `s` with the cursor moved: with `shift` the selection goes from where
it started, or from the old cursor, otherwise nothing is selected.  The text is the
same, and so is everything else but the place of the cursor on the screen. -/
def Went (s s' : TextBox φ) (shift : Bool) : Prop :=
  s' = { s with cursor := s'.cursor, sel := s'.sel, info := s'.info, timer := 0, flash := 0 } ∧
  (shift = false → s'.sel = none) ∧ (shift = true → s'.sel = some (s.sel.getD s.cursor))

theorem setCursor_went {e : BoxEnv φ} {s s' : TextBox φ} {pos : Cursor} {b : Bool} (h : setCursor e s pos b = some s') :
    Went s s' b ∧ s'.cursor = pos ∧ s.layout.cursorPixelPos e.width e.align pos.1 pos.2 = some s'.info := by
  unfold setCursor at h
  simp only at h
  split at h
  · cases h
  · rename_i info hinfo
    cases h
    refine ⟨⟨rfl, ?_, ?_⟩, rfl, hinfo⟩
    · intro hb; subst hb; rfl
    · intro hb; subst hb
      simp only [if_true]
      cases s.sel <;> rfl

end TextBox
open TextBox

/-! ## C64 -/

/-- C64: the caret is drawn where the layout has the cursor, after every movement. -/
theorem C64_caret {e : BoxEnv φ} {s s' : TextBox φ} {i : Input} (hfoc : s.focused = true)
    (hi : (∃ a, i = .up a) ∨ (∃ a, i = .down a) ∨ (∃ a b, i = .left a b) ∨ (∃ a b, i = .right a b) ∨ (∃ a b, i = .home a b) ∨
      ∃ a b, i = .end a b)
    (h : handle e s i = some s') :
    ∃ shift, Went s s' shift ∧ s.layout.cursorPixelPos e.width e.align s'.cursor.1 s'.cursor.2 = some s'.info := by
  have key : ∀ {pos : Cursor} {b : Bool}, setCursor e s pos b = some s' →
      ∃ shift, Went s s' shift ∧ s.layout.cursorPixelPos e.width e.align s'.cursor.1 s'.cursor.2 = some s'.info := by
    intro pos b hs
    obtain ⟨h1, h2, h3⟩ := setCursor_went hs
    exact ⟨b, h1, by rw [h2]; exact h3⟩
  rcases hi with ⟨a, rfl⟩ | ⟨a, rfl⟩ | ⟨a, b, rfl⟩ | ⟨a, b, rfl⟩ | ⟨a, b, rfl⟩ | ⟨a, b, rfl⟩ <;>
    simp only [handle, hfoc, if_true, TextBox.key] at h
  · unfold TextBox.prevLine at h
    split at h
    · split at h
      · cases h
      · exact key h
    · exact key h
  · unfold TextBox.nextLine at h
    split at h
    · split at h
      · cases h
      · exact key h
    · exact key h
  · unfold TextBox.prevWord TextBox.prevCharacter at h
    split at h
    · split at h
      · cases h
      · exact key h
    · exact key h
  · unfold TextBox.nextWord TextBox.nextCharacter at h
    split at h
    · split at h
      · cases h
      · exact key h
    · exact key h
  · unfold TextBox.textStart TextBox.lineStart at h
    split at h
    · exact key h
    · split at h
      · cases h
      · exact key h
  · unfold TextBox.textEnd TextBox.lineEnd at h
    split at h
    · exact key h
    · split at h
      · cases h
      · exact key h

/-- C64: Left goes to the boundary before the cursor, if there is one. -/
theorem C64_left {e : BoxEnv φ} {s s' : TextBox φ} {B : Nat → Prop} {shift : Bool} (hfoc : s.focused = true)
    (hb : Breaks (e.breaks s.ctrl) B) (h : handle e s (.left shift false) = some s') :
    Went s s' shift ∧ ((∃ q, B q ∧ q < s.cursor.1 ∧ (∀ m, B m → m < s.cursor.1 → m ≤ q) ∧ s'.cursor = (q, .default)) ∨
      (s.cursor.1 = 0 ∧ s'.cursor = s.cursor)) := by
  simp only [handle, hfoc, if_true, key, TextBox.prevCharacter, Bool.false_eq_true, if_false] at h
  obtain ⟨h1, h2, -⟩ := setCursor_went h
  refine ⟨h1, ?_⟩
  rw [h2]
  exact C50_prev hb s.cursor

/-- C64: Right goes to the boundary behind the cursor, if there is one. -/
theorem C64_right {e : BoxEnv φ} {s s' : TextBox φ} {B : Nat → Prop} {shift : Bool} (hfoc : s.focused = true)
    (hb : Breaks (e.breaks s.ctrl) B) (h : handle e s (.right shift false) = some s') :
    Went s s' shift ∧ ((∃ q, NextIn B s.cursor.1 q ∧ s'.cursor = (q, .default)) ∨
      ((e.breaks s.ctrl).size ≤ s.cursor.1 ∧ s'.cursor = s.cursor)) := by
  simp only [handle, hfoc, if_true, key, TextBox.nextCharacter, Bool.false_eq_true, if_false] at h
  obtain ⟨h1, h2, -⟩ := setCursor_went h
  refine ⟨h1, ?_⟩
  rw [h2]
  exact C50_next hb s.cursor

/-- C64: Ctrl+Left goes to the last start of a word or line break before the cursor,
or to the start of the text. -/
theorem C64_ctrl_left {e : BoxEnv φ} {s s' : TextBox φ} {B : Nat → Prop} {shift : Bool} (hfoc : s.focused = true)
    (hb : Breaks (e.breaks s.ctrl) B) (hsp : ∀ c, isLineBreak c = true → (e.breaks s.ctrl).space c = true)
    (h : handle e s (.left shift true) = some s') :
    Went s s' shift ∧ ((WordStart (e.breaks s.ctrl) B s.cursor.1 s'.cursor.1 ∧
        ∀ m, WordStart (e.breaks s.ctrl) B s.cursor.1 m → m ≤ s'.cursor.1) ∨
      ((∀ m, ¬ WordStart (e.breaks s.ctrl) B s.cursor.1 m) ∧ s'.cursor.1 = 0)) := by
  simp only [handle, hfoc, if_true, key, TextBox.prevWord] at h
  obtain ⟨q, hq, hw⟩ := C51_prev_word hb hsp s.cursor
  rw [hq] at h
  obtain ⟨h1, h2, -⟩ := setCursor_went h
  refine ⟨h1, ?_⟩
  rw [h2]
  rcases hw with ⟨a1, -, a2⟩ | ⟨a1, ⟨rfl, -⟩ | ⟨rfl, a2⟩⟩
  · exact Or.inl ⟨a1, a2⟩
  · exact Or.inr ⟨a1, rfl⟩
  · exact Or.inr ⟨a1, a2⟩

/-- C64: Ctrl+Right goes to the first start of a word or line break behind the cursor,
or to the end of the text. -/
theorem C64_ctrl_right {e : BoxEnv φ} {s s' : TextBox φ} {B : Nat → Prop} {shift : Bool} (hfoc : s.focused = true)
    (hb : Breaks (e.breaks s.ctrl) B) (hc : s.cursor.1 ≤ (e.breaks s.ctrl).size)
    (h : handle e s (.right shift true) = some s') :
    Went s s' shift ∧ ((WordStop (e.breaks s.ctrl) B s.cursor.1 s'.cursor.1 ∧
        ∀ m, WordStop (e.breaks s.ctrl) B s.cursor.1 m → s'.cursor.1 ≤ m) ∨
      ((∀ m, ¬ WordStop (e.breaks s.ctrl) B s.cursor.1 m) ∧ s'.cursor.1 = (e.breaks s.ctrl).size)) := by
  simp only [handle, hfoc, if_true, key, TextBox.nextWord] at h
  obtain ⟨q, hq, hw⟩ := C51_next_word hb hc
  rw [hq] at h
  obtain ⟨h1, h2, -⟩ := setCursor_went h
  refine ⟨h1, ?_⟩
  rw [h2]
  rcases hw with ⟨a1, -, a2⟩ | ⟨a1, ⟨rfl, -⟩ | ⟨rfl, a2⟩⟩
  · exact Or.inl ⟨a1, a2⟩
  · exact Or.inr ⟨a1, rfl⟩
  · exact Or.inr ⟨a1, a2⟩

/-- C64: Home and End go to the start and the end of the line the cursor is on, as
the layout has them (C23). -/
theorem C64_home_end {e : BoxEnv φ} {s s' : TextBox φ} {shift : Bool} (hfoc : s.focused = true) :
    (handle e s (.home shift false) = some s' → Went s s' shift ∧ s.layout.lineStart s.info.line = some s'.cursor) ∧
    (handle e s (.end shift false) = some s' → Went s s' shift ∧ s.layout.lineEnd s.info.line = some s'.cursor) := by
  constructor <;> intro h
  · simp only [handle, hfoc, if_true, key, TextBox.lineStart, Bool.false_eq_true, if_false] at h
    split at h
    · cases h
    · rename_i c hc
      obtain ⟨h1, h2, -⟩ := setCursor_went h
      exact ⟨h1, by rw [hc, h2]⟩
  · simp only [handle, hfoc, if_true, key, TextBox.lineEnd, Bool.false_eq_true, if_false] at h
    split at h
    · cases h
    · rename_i c hc
      obtain ⟨h1, h2, -⟩ := setCursor_went h
      exact ⟨h1, by rw [hc, h2]⟩

/-- C64: Ctrl+Home and Ctrl+End go to the ends of the text. -/
theorem C64_ctrl_home_end {e : BoxEnv φ} {s s' : TextBox φ} {shift : Bool} (hfoc : s.focused = true) :
    (handle e s (.home shift true) = some s' → Went s s' shift ∧ s'.cursor.1 = 0) ∧
    (handle e s (.end shift true) = some s' → Went s s' shift ∧ s'.cursor.1 = s.ctrl.length) := by
  constructor <;> intro h
  · simp only [handle, hfoc, if_true, key, TextBox.textStart] at h
    obtain ⟨h1, h2, -⟩ := setCursor_went h
    exact ⟨h1, by rw [h2]⟩
  · simp only [handle, hfoc, if_true, key, TextBox.textEnd] at h
    obtain ⟨h1, h2, -⟩ := setCursor_went h
    exact ⟨h1, by rw [h2]⟩

/-- C64: Up and Down go to the position of the line above or below that is closest to
the caret (C26); on the first and last line they stay. -/
theorem C64_up_down {e : BoxEnv φ} {s s' : TextBox φ} {shift : Bool} (hfoc : s.focused = true) :
    (handle e s (.up shift) = some s' → Went s s' shift ∧ (s.info.line = 0 → s'.cursor = s.cursor) ∧
      ∀ l, s.info.line = l + 1 → s.layout.findClosest e.width e.align (e.breaks s.ctrl).follow l s.info.x = some s'.cursor) ∧
    (handle e s (.down shift) = some s' → Went s s' shift ∧ (s.info.line + 1 = s.layout.lines.length → s'.cursor = s.cursor) ∧
      (s.info.line + 1 < s.layout.lines.length →
        s.layout.findClosest e.width e.align (e.breaks s.ctrl).follow (s.info.line + 1) s.info.x = some s'.cursor)) := by
  constructor <;> intro h
  · simp only [handle, hfoc, if_true, key, TextBox.prevLine] at h
    split at h
    · split at h
      · cases h
      · rename_i hl c hc
        obtain ⟨h1, h2, -⟩ := setCursor_went h
        refine ⟨h1, fun h0 => by omega, fun l hl => ?_⟩
        rw [h2, ← hc, hl]
        rfl
    · obtain ⟨h1, h2, -⟩ := setCursor_went h
      exact ⟨h1, fun _ => h2, fun l hl => by omega⟩
  · simp only [handle, hfoc, if_true, key, TextBox.nextLine] at h
    split at h
    · split at h
      · cases h
      · rename_i hl c hc
        obtain ⟨h1, h2, -⟩ := setCursor_went h
        refine ⟨h1, fun h0 => by omega, fun _ => ?_⟩
        rw [h2, ← hc]
        rfl
    · obtain ⟨h1, h2, -⟩ := setCursor_went h
      exact ⟨h1, fun _ => h2, fun hl => by omega⟩

theorem between_went {e : BoxEnv φ} {f g : TextBox φ → Option Cursor}
    {s s' : TextBox φ} (h : selectBetween (fun s b => match f s with | none => none | some c => setCursor e s c b)
      (fun s b => match g s with | none => none | some c => setCursor e s c b) s = some s') :
    ∃ s1 c1 c2, f s = some c1 ∧ setCursor e s c1 false = some s1 ∧ g s1 = some c2 ∧ s'.sel = some c1 ∧ s'.cursor = c2 ∧
      s' = { s with cursor := s'.cursor, sel := s'.sel, info := s'.info, timer := 0, flash := 0 } := by
  unfold selectBetween at h
  simp only at h
  cases hf : f s with
  | none => rw [hf] at h; cases h
  | some c1 =>
    rw [hf] at h
    simp only at h
    cases h1 : setCursor e s c1 false with
    | none => rw [h1] at h; cases h
    | some s1 =>
      rw [h1] at h
      simp only at h
      cases hg : g s1 with
      | none => rw [hg] at h; cases h
      | some c2 =>
        rw [hg] at h
        simp only at h
        obtain ⟨⟨a1, a2, -⟩, a3, -⟩ := setCursor_went h1
        obtain ⟨⟨b1, -, b2⟩, b3, -⟩ := setCursor_went h
        refine ⟨s1, c1, c2, rfl, h1, hg, ?_, b3, ?_⟩
        · rw [b2 rfl, a2 rfl, a3]; rfl
        · rw [b1, a1]

/-- C64: Ctrl+A selects the whole text. -/
theorem C64_select_all {e : BoxEnv φ} {s s' : TextBox φ} (hfoc : s.focused = true) (h : handle e s .selectAll = some s') :
    s'.sel.map (·.1) = some 0 ∧ s'.cursor.1 = s.ctrl.length ∧
    s' = { s with cursor := s'.cursor, sel := s'.sel, info := s'.info, timer := 0, flash := 0 } := by
  simp only [handle, hfoc, if_true, key] at h
  obtain ⟨s1, c1, c2, h1, h2, h3, h4, h5, h6⟩ := between_went (e := e) (f := fun _ => some (0, .default))
    (g := fun s => some (s.ctrl.length, .default)) h
  cases h1
  cases h3
  have := (setCursor_fields h2).1
  refine ⟨by rw [h4]; rfl, ?_, h6⟩
  rw [h5, this]

/-- C64: a click into the focused box goes to the position of the line under the
mouse closest to it (C26); the click begins dragging.  With a second click there the
word around it is selected, with a third one the line, with a fourth everything. -/
theorem C64_click {e : BoxEnv φ} {s s' : TextBox φ} {x y : Rat} {shift : Bool} {clicks : Nat} (hfoc : s.focused = true)
    (h : handle e s (.press x y shift clicks) = some s') :
    ∃ line pos s1, s.layout.closestToPositionLine y = some line ∧
      s.layout.findClosest e.width e.align (e.breaks s.ctrl).follow line x = some pos ∧ Went s s1 shift ∧ s1.cursor = pos ∧
      s' = { s with cursor := s'.cursor, sel := s'.sel, info := s'.info, timer := 0, flash := 0, drag := true } ∧
      (clicks % 4 = 0 → s'.cursor = s1.cursor ∧ s'.sel = s1.sel) ∧
      (clicks % 4 = 1 → ∃ a, s'.sel = some a ∧ (e.breaks s.ctrl).prevWord pos = some a ∧ (e.breaks s.ctrl).nextWord a = some s'.cursor) ∧
      (clicks % 4 = 2 → ∃ a s2, s'.sel = some a ∧ s.layout.lineStart s1.info.line = some a ∧ setCursor e s1 a false = some s2 ∧
        s.layout.lineEnd s2.info.line = some s'.cursor) ∧
      (clicks % 4 = 3 → s'.sel.map (·.1) = some 0 ∧ s'.cursor.1 = s.ctrl.length) := by
  simp only [handle, TextBox.press, hfoc, if_true, TextBox.toMouse, BreakEnv.closestToPosition] at h
  cases hl : s.layout.closestToPositionLine y with
  | none => rw [hl] at h; cases h
  | some line =>
    rw [hl] at h
    simp only at h
    cases hc : s.layout.findClosest e.width e.align (e.breaks s.ctrl).follow line x with
    | none => rw [hc] at h; cases h
    | some pos =>
      rw [hc] at h
      simp only at h
      cases h1 : setCursor e s pos shift with
      | none => rw [h1] at h; cases h
      | some s1 =>
        rw [h1] at h
        simp only at h
        cases h2 : clickSelect e s1 clicks with
        | none => rw [h2] at h; cases h
        | some s2 =>
          rw [h2] at h
          cases h
          obtain ⟨w1, w2, -⟩ := setCursor_went h1
          have hlay : s1.layout = s.layout := by rw [w1.1]
          have hctrl : s1.ctrl = s.ctrl := by rw [w1.1]
          refine ⟨line, pos, s1, rfl, hc, w1, w2, ?_⟩
          unfold clickSelect at h2
          have hmod : clicks % 4 < 4 := Nat.mod_lt _ (by decide)
          generalize clicks % 4 = k at h2 hmod
          match k, hmod, h2 with
          | 0, _, h2 =>
            cases h2
            refine ⟨?_, fun _ => ⟨rfl, rfl⟩, fun h => by omega, fun h => by omega, fun h => by omega⟩
            simp only
            rw [w1.1]
          | 1, _, h2 =>
            obtain ⟨s3, c1, c2, a1, a2, a3, a4, a5, a6⟩ := between_went (e := e) (f := fun s => (e.breaks s.ctrl).prevWord s.cursor)
              (g := fun s => (e.breaks s.ctrl).nextWord s.cursor) h2
            refine ⟨?_, fun h => by omega, fun _ => ⟨c1, a4, ?_, ?_⟩, fun h => by omega, fun h => by omega⟩
            · simp only
              rw [a6, w1.1]
            · rw [← a1, hctrl, w2]
            · obtain ⟨⟨b1, -, -⟩, b2, -⟩ := setCursor_went a2
              simp only
              rw [a5, ← a3, b2, b1, hctrl]
          | 2, _, h2 =>
            obtain ⟨s3, c1, c2, a1, a2, a3, a4, a5, a6⟩ := between_went (e := e) (f := fun s => s.layout.lineStart s.info.line)
              (g := fun s => s.layout.lineEnd s.info.line) h2
            refine ⟨?_, fun h => by omega, fun h => by omega, fun _ => ⟨c1, s3, a4, ?_, a2, ?_⟩, fun h => by omega⟩
            · simp only
              rw [a6, w1.1]
            · rw [← a1, hlay]
            · obtain ⟨⟨b1, -, -⟩, b2, -⟩ := setCursor_went a2
              have hl3 : s3.layout = s.layout := by rw [b1]; exact hlay
              simp only
              rw [a5, ← a3, hl3]
          | 3, _, h2 =>
            obtain ⟨s3, c1, c2, a1, a2, a3, a4, a5, a6⟩ := between_went (e := e) (f := fun _ => some (0, .default))
              (g := fun s => some (s.ctrl.length, .default)) h2
            cases a1
            cases a3
            obtain ⟨⟨b1, -, -⟩, b2, -⟩ := setCursor_went a2
            have hc3 : s3.ctrl = s.ctrl := by rw [b1]; exact hctrl
            refine ⟨?_, fun h => by omega, fun h => by omega, fun h => by omega, fun _ => ⟨by simp only; rw [a4]; rfl, ?_⟩⟩
            · simp only
              rw [a6, w1.1]
            · simp only
              rw [a5, hc3]

/-- C64: moving the mouse with the button held extends the selection to the position
closest to the mouse; without, or when the button has been released, nothing happens. -/
theorem C64_drag {e : BoxEnv φ} {s s' : TextBox φ} {x y : Rat} (hfoc : s.focused = true) (h : handle e s (.move x y) = some s') :
    (s.drag = true → Went s s' true ∧ ∃ line, s.layout.closestToPositionLine y = some line ∧
      s.layout.findClosest e.width e.align (e.breaks s.ctrl).follow line x = some s'.cursor) ∧
    (s.drag = false → s' = s) ∧ ∃ s'', handle e s .release = some s'' ∧ s'' = { s with drag := false } := by
  simp only [handle, hfoc, Bool.true_and] at h
  refine ⟨?_, ?_, ?_⟩
  · intro hd
    rw [hd] at h
    simp only [if_true, TextBox.toMouse, BreakEnv.closestToPosition] at h
    cases hl : s.layout.closestToPositionLine y with
    | none => rw [hl] at h; cases h
    | some line =>
      rw [hl] at h
      simp only at h
      cases hc : s.layout.findClosest e.width e.align (e.breaks s.ctrl).follow line x with
      | none => rw [hc] at h; cases h
      | some pos =>
        rw [hc] at h
        obtain ⟨w1, w2, -⟩ := setCursor_went h
        exact ⟨w1, line, rfl, by rw [w2]; exact hc⟩
  · intro hd
    rw [hd] at h
    simp only [Bool.false_eq_true, if_false] at h
    cases h; rfl
  · exact ⟨_, rfl, by simp only [hfoc, if_true]⟩

/-- C64: a box that is not focused ignores keys, characters and mouse movement; losing
the focus drops the selection. -/
theorem C64_focus {e : BoxEnv φ} {s s' : TextBox φ} {i : Input} (h : handle e s i = some s') :
    (s.focused = false → (∀ x y shift clicks, i ≠ .press x y shift clicks) → i ≠ .focus → s' = s) ∧
    (i = .blur → s.focused = true → s'.focused = false ∧ s'.sel = none ∧ s'.drag = false ∧ s'.text = s.text ∧ s'.cursor = s.cursor) ∧
    (i = .focus → s'.focused = true ∧ s'.text = s.text ∧ s'.cursor = s.cursor) := by
  refine ⟨?_, ?_, ?_⟩
  · intro hf hp hfo
    cases i <;> first
      | exact absurd rfl (hp _ _ _ _)
      | exact absurd rfl hfo
      | (simp only [handle, hf, TextBox.blur, Bool.false_and, Bool.false_eq_true, if_false] at h
         cases h; rfl)
  · rintro rfl hf
    simp only [handle, TextBox.blur, hf, if_true] at h
    have := recalc_fields h
    rw [this]
    exact ⟨rfl, rfl, rfl, rfl, rfl⟩
  · rintro rfl
    simp only [handle, TextBox.focus] at h
    split at h
    · rename_i hf
      cases h; exact ⟨hf, rfl, rfl⟩
    · have := recalc_fields h
      rw [this]
      exact ⟨rfl, rfl, rfl⟩

/-- The keys at work: "ab cd", End, Ctrl+Left, Shift+Left twice, then Home, and a double
click on "cd". -/
example :
    (run monoEnv {} [.focus, .char 97, .char 98, .char 32, .char 99, .char 100, .left false true, .left true false, .left true false]).map
      (fun s => (s.cursor.1, s.sel.map (·.1))) = some (1, some 3) ∧
    (run monoEnv {} [.focus, .char 97, .char 98, .char 32, .char 99, .char 100, .home false false]).map
      (fun s => (s.cursor.1, s.sel.map (·.1))) = some (0, none) ∧
    (run monoEnv {} [.focus, .char 97, .char 98, .char 32, .char 99, .char 100, .press 21 2 false 1]).map
      (fun s => (s.cursor.1, s.sel.map (·.1))) = some (5, some 3) := by
  decide +kernel

/-! ## C65 -/

theorem or_eq_add {k a : Nat} (i : Nat) (h : a < 2 ^ i) : a ||| 2 ^ i * k = a + 2 ^ i * k := by
  rw [Nat.or_comm, ← Nat.two_pow_add_eq_or_of_lt h, Nat.add_comm]

/-- C65: a typed character is encoded in UTF-8 (`String.utf8EncodeChar` is Lean's own
encoder). -/
theorem C65_encode (c : Char) : utf8Encode c.toNat = String.utf8EncodeChar c := by
  have hmax : c.toNat < 1114112 := by
    have := c.valid
    simp only [UInt32.isValidChar, Nat.isValidChar] at this
    have e : c.toNat = c.val.toNat := rfl
    omega
  have e : c.val.toNat = c.toNat := rfl
  unfold utf8Encode String.utf8EncodeChar
  simp only [e]
  generalize c.toNat = n at hmax
  have m6 : n % 64 ||| 0x80 = n % 64 + 0x80 := or_eq_add (k := 2) 6 (Nat.mod_lt _ (by decide))
  have m12 : n / 64 % 64 ||| 0x80 = n / 64 % 64 + 0x80 := or_eq_add (k := 2) 6 (Nat.mod_lt _ (by decide))
  have m18 : n / 4096 % 64 ||| 0x80 = n / 4096 % 64 + 0x80 := or_eq_add (k := 2) 6 (Nat.mod_lt _ (by decide))
  rw [m6, m12, m18]
  split
  · rfl
  · split
    · rw [show n / 64 ||| 0xC0 = n / 64 + 0xC0 from or_eq_add (k := 6) 5 (by omega), Nat.mod_eq_of_lt (show n / 64 < 0x20 by omega)]
    · split
      · rw [show n / 4096 ||| 0xE0 = n / 4096 + 0xE0 from or_eq_add (k := 14) 4 (by omega),
          Nat.mod_eq_of_lt (show n / 4096 < 0x10 by omega)]
      · rw [show n / 262144 ||| 0xF0 = n / 262144 + 0xF0 from or_eq_add (k := 30) 3 (by omega),
          Nat.mod_eq_of_lt (show n / 262144 < 0x08 by omega)]

/-- C65: typing a string at the end of the text of a focused, editable box puts its
UTF-8 bytes there. -/
theorem C65_typing {e : BoxEnv φ} (hg : e.Good) : ∀ (cs : List Char) {s : TextBox φ}, Valid e s → s.focused = true → s.editable = true →
    s.sel = none → s.cursor.1 = s.text.length → s.text.length + (cs.flatMap String.utf8EncodeChar).length + 4 < e.limit →
    ∃ s', run e s (cs.map fun c => .char c.toNat) = some s' ∧ s'.text = s.text ++ cs.flatMap String.utf8EncodeChar ∧
      s'.cursor.1 = s'.text.length ∧ s'.sel = none
  | [], s, _, _, _, hsel, hcur, _ => ⟨s, rfl, by simp, hcur, hsel⟩
  | c :: cs, s, hs, hf, hed, hsel, hcur, hlen => by
    simp only [List.flatMap_cons, List.length_append] at hlen
    obtain ⟨s1, h1, h2⟩ := handle_valid hg hs (i := .char c.toNat)
      ⟨Or.inr rfl, (fun h => by cases h), (fun h => by cases h), by simp only [growth]; omega⟩
    have hr := C53_type_partial hf hed (by rw [hsel]; exact fun h => by cases h) (by omega) (fun c hc => by rw [hsel] at hc; cases hc) h1
    obtain ⟨a, b, r1, -, r2, r3, r4⟩ := hr
    obtain ⟨ra, rb⟩ := r1 hsel
    subst ra; subst rb
    rw [C65_encode] at r2 r3
    rw [hcur, List.take_length, List.drop_length, List.append_nil] at r2
    have hfe : s1.focused = true ∧ s1.editable = true := by
      simp only [handle, hf, hed, Bool.and_self, if_true, insertTyped] at h1
      split at h1
      · cases h1
      · rename_i s2 h3
        have h4 := insertText_fields h1
        unfold removeHighlighted at h3
        rw [hsel] at h3
        cases h3
        rw [h4]
        exact ⟨hf, hed⟩
    have hl1 : s1.text.length = s.text.length + (String.utf8EncodeChar c).length := by rw [r2, List.length_append]
    obtain ⟨s', q1, q2, q3, q4⟩ := C65_typing hg cs h2 hfe.1 hfe.2 r4 (by omega) (by omega)
    refine ⟨s', ?_, ?_, q3, q4⟩
    · simp only [List.map_cons, run]
      rw [h1]
      exact q1
    · rw [q2, r2, List.flatMap_cons, List.append_assoc]

/-- Typing "aé€😀" into a new box. -/
example : (run monoEnv {} (.focus :: "aé€😀".toList.map fun c => .char c.toNat)).map (fun s => (s.text, s.cursor.1)) =
    some ([97, 195, 169, 226, 130, 172, 240, 159, 152, 128], 10) := by
  decide +kernel

end RichText
