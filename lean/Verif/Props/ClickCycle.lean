import Verif.Model.Clicks
import Verif.Props.DoubleClick
/-!
C151: what quick clicks at one place select, one after the other.
-/
namespace RichText
variable {φ : Type}
open TextBox
namespace TextBox

/-- A press is a press with the number of clicks the container counts. -/
theorem clickAt_press {e : BoxEnv φ} {s : TextBox φ} (hf : s.focused = true) (f : Focus Cursor) {p : Cursor} {x y : Rat} (hp : s.place e x y = some p)
    (shift : Bool) (t : Rat) :
    clickAt e (s, f) x y shift t = (handle e s (.press x y shift (f.click p t).clicks)).map fun s' => (s', f.click p t) := by
  unfold place at hp
  simp only [clickAt, handle, TextBox.press, hf, if_true, toMouse, hp]
  cases h1 : setCursor e s p shift with
  | none => rfl
  | some s1 =>
    simp only [(setCursor_went h1).2.1]
    cases clickSelect e s1 (f.click p t).clicks <;> rfl

theorem setCursor_drag (e : BoxEnv φ) (s : TextBox φ) (d : Bool) (c : Cursor) (b : Bool) :
    setCursor e { s with drag := d } c b = (setCursor e s c b).map fun s' => { s' with drag := d } := by
  unfold setCursor
  dsimp only
  cases s.layout.cursorPixelPos e.width e.align c.1 c.2 <;> rfl

theorem setCursor_keeps {e : BoxEnv φ} {s s' : TextBox φ} {c : Cursor} {b : Bool} (h : setCursor e s c b = some s') :
    s'.ctrl = s.ctrl ∧ s'.layout = s.layout := by
  rw [(setCursor_went h).1.1]
  exact ⟨rfl, rfl⟩

theorem clickSelect_drag (e : BoxEnv φ) (s : TextBox φ) (d : Bool) (n : Nat) :
    clickSelect e { s with drag := d } n = (clickSelect e s n).map fun s' => { s' with drag := d } := by
  unfold clickSelect selectBetween
  split
  · simp only [prevWord, nextWord]
    cases (e.breaks s.ctrl).prevWord s.cursor with
    | none => rfl
    | some c =>
      simp only [setCursor_drag]
      cases setCursor e s c false with
      | none => rfl
      | some s1 =>
        simp only [Option.map_some]
        cases (e.breaks s1.ctrl).nextWord s1.cursor with
        | none => rfl
        | some c => simp only [setCursor_drag]
  · simp only [lineStart, lineEnd]
    cases s.layout.lineStart s.info.line with
    | none => rfl
    | some c =>
      simp only [setCursor_drag]
      cases setCursor e s c false with
      | none => rfl
      | some s1 =>
        simp only [Option.map_some]
        cases s1.layout.lineEnd s1.info.line with
        | none => rfl
        | some c => simp only [setCursor_drag]
  · simp only [textStart, textEnd, setCursor_drag]
    cases setCursor e s _ false with
    | none => rfl
    | some s1 => simp only [Option.map_some, setCursor_drag]
  · rfl

/-- Without shift it does not matter where the cursor was and what was selected. -/
theorem press_moved {e : BoxEnv φ} {s : TextBox φ} (hf : s.focused = true) (cur : Cursor) (sel : Option Cursor) (info : _) (d : Bool) (t k : _)
    (x y : Rat) (clicks : Nat) :
    handle e { s with cursor := cur, sel := sel, info := info, timer := t, flash := k, drag := d } (.press x y false clicks) =
      handle e s (.press x y false clicks) := by
  simp only [handle, TextBox.press, hf, if_true, toMouse]
  cases (e.breaks s.ctrl).closestToPosition s.layout e.width e.align x y with
  | none => rfl
  | some c =>
    simp only [setCursor]
    cases s.layout.cursorPixelPos e.width e.align c.1 c.2 with
    | none => rfl
    | some i =>
      simp only [Bool.false_eq_true, if_false]
      simp only [hf]
      have h := clickSelect_drag e { s with focused := true, sel := none, cursor := c, info := i, timer := 0, flash := 0 } d clicks
      dsimp only at h
      rw [h]
      cases clickSelect e { s with focused := true, sel := none, cursor := c, info := i, timer := 0, flash := 0 } clicks <;> rfl

/-- Quick presses at one point: the last one does what a press with as many clicks before it does at once. -/
theorem clicksAt_last {e : BoxEnv φ} (hg : e.Good) {s : TextBox φ} (h : Sound e s) (hf : s.focused = true) (hne : s.shown e ≠ []) {x y : Rat} {p : Cursor}
    (hp : s.place e x y = some p) : ∀ (ts : List Rat) (f : Focus Cursor) (s0 : TextBox φ) (t : Rat),
    s0 = { s with cursor := s0.cursor, sel := s0.sel, info := s0.info, timer := s0.timer, flash := s0.flash, drag := s0.drag } →
    List.IsChain (fun a b => b - a ≤ 1 / 2) (t :: ts) →
    ∃ s' f', clicksAt e x y (s0, f) (t :: ts) = some (s', f') ∧ handle e s (.press x y false ((f.click p t).clicks + ts.length)) = some s' ∧
      f'.clicks = (f.click p t).clicks + ts.length
  | [], f, s0, t, hs0, _ => by
    obtain ⟨s', h1, -⟩ := handle_sound hg h (i := .press x y false (f.click p t).clicks) ⟨.inl hne, nofun, nofun, h.small⟩
    have hc := clickAt_press (e := e) (s := s0) (by rw [hs0]; exact hf) f (p := p) (x := x) (y := y) (by rw [hs0]; exact hp) false t
    rw [hs0, press_moved hf, h1, ← hs0] at hc
    exact ⟨s', _, by simp only [clicksAt, hc, Option.map_some], h1, rfl⟩
  | t' :: ts, f, s0, t, hs0, ht => by
    obtain ⟨s', h1, -⟩ := handle_sound hg h (i := .press x y false (f.click p t).clicks) ⟨.inl hne, nofun, nofun, h.small⟩
    have hc := clickAt_press (e := e) (s := s0) (by rw [hs0]; exact hf) f (p := p) (x := x) (y := y) (by rw [hs0]; exact hp) false t
    rw [hs0, press_moved hf, h1, ← hs0] at hc
    obtain ⟨-, -, -, -, -, -, -, c5, -⟩ := C64_click hf h1
    obtain ⟨s2, f2, i1, i2, i3⟩ := clicksAt_last hg h hf hne hp ts (f.click p t) s' t' (by rw [c5]) (List.isChain_cons_cons.1 ht).2
    have hq : ((f.click p t).click p t').clicks = (f.click p t).clicks + 1 := by
      have := (List.isChain_cons_cons.1 ht).1
      simp only [Focus.click, this, and_self, if_true]
    rw [hq] at i2 i3
    refine ⟨s2, f2, ?_, ?_, ?_⟩
    · rw [clicksAt, hc]
      exact i1
    · rw [← i2, List.length_cons, Nat.add_assoc, Nat.add_comm 1]
    · rw [i3, List.length_cons, Nat.add_assoc, Nat.add_comm 1]

end TextBox

/-- Times at which the button goes down, each at most half a second after the one before. -/
def Quick : List Rat → Prop := List.IsChain fun a b => b - a ≤ 1 / 2

/-- C151 (partial: the box has the focus): of quick clicks at one point, the first puts the caret there with nothing selected, the second selects the
word, the third the line, the fourth the whole text, the fifth puts the caret there again, and so on round; the text is left as it is.  `ts` are the
times after the first click, `f` what the container remembers of earlier clicks, of which the first one here is not a repetition. -/
theorem C151_cycle_partial {e : BoxEnv φ} (hg : e.Good) {s : TextBox φ} (h : Sound e s) (hf : s.focused = true) (hne : s.shown e ≠ []) {x y : Rat}
    {p : Cursor} (hp : s.place e x y = some p) {f : Focus Cursor} {t : Rat} (hnew : f.lastPos ≠ some p ∨ 1 / 2 < t - f.lastTime) {ts : List Rat}
    (ht : Quick (t :: ts)) :
    ∃ s' f', clicksAt e x y (s, f) (t :: ts) = some (s', f') ∧ s'.text = s.text ∧
      (ts.length % 4 = 0 → s'.sel = none ∧ s'.cursor = p) ∧
      (ts.length % 4 = 1 → ∀ B, Breaks (e.breaks s.ctrl) B → ∀ w v, IsWord (e.breaks s.ctrl) B w v → w < p.1 → p.1 ≤ v →
        s'.sel = some (w, .default) ∧ v ≤ s'.cursor.1 ∧
        ∀ k, B k → v ≤ k → k < s'.cursor.1 → SpaceAt (e.breaks s.ctrl) k ∧ ¬ LineBreakAt (e.breaks s.ctrl) k) ∧
      (ts.length % 4 = 2 → ∀ ls B, s.ShowsLines e ls B → ∃ m l a, s.layout.closestToPositionLine y = some m ∧ ls[m]? = some l ∧ s'.sel = some a ∧
        (∀ r ∈ l.runs, a.1 ≤ r.charStart ∧ r.charEnd ≤ s'.cursor.1) ∧ (∃ r ∈ l.runs, a.1 = r.charStart) ∧ ∃ r ∈ l.runs, s'.cursor.1 = r.charEnd) ∧
      (ts.length % 4 = 3 → s'.sel.map (·.1) = some 0 ∧ s'.cursor.1 = s.ctrl.length) := by
  obtain ⟨s', f', h1, h2, -⟩ := clicksAt_last hg h hf hne hp ts f s t rfl ht
  have h0 : (f.click p t).clicks = 0 := by
    unfold Focus.click
    refine if_neg fun hc => ?_
    rcases hnew with hn | hn
    · exact hn hc.1
    · exact absurd hc.2 (not_le.2 hn)
  rw [h0, Nat.zero_add] at h2
  obtain ⟨line, pos, s1, c1, c2, c3, c4, c5, c6, -, -, c9⟩ := C64_click hf h2
  have hpp : pos = p := by
    unfold TextBox.place BreakEnv.closestToPosition at hp
    rw [c1] at hp
    simp only [c2] at hp
    exact Option.some.inj hp
  subst hpp
  refine ⟨s', f', h1, by rw [c5], ?_, ?_, ?_, c9⟩
  · intro hk
    obtain ⟨d1, d2⟩ := c6 hk
    exact ⟨d2.trans (c3.2.1 rfl), d1.trans c4⟩
  · intro hk B hB w v hw w1 w2
    obtain ⟨s2, d1, -, -, d4, d5, -, d7, -⟩ := C147_word_partial hg h hf hne x y false hk hB hp hw w1 w2
    rw [h2] at d1
    cases d1
    exact ⟨d4, d5, d7⟩
  · intro hk ls B hs
    obtain ⟨m, l, a, c, s2, d1, d2, d3, -, d5, d6, d7, d8, d9⟩ := C147_line_partial hs x y false hk
    rw [h2] at d3
    cases d3
    subst d6
    exact ⟨m, l, a, d1, d2, d5, d7, d8, d9⟩

/-- C151 is false for a box without focus: after a second quick click nothing is selected yet, in every state, wherever the clicks are. -/
theorem C151_focus_violated {e : BoxEnv φ} {s s1 s2 : TextBox φ} {f f1 f2 : Focus Cursor} (hf : s.focused = false) {x y x' y' t t' : Rat}
    (h1 : clickAt e (s, f) x y false t = some (s1, f1)) (h2 : clickAt e (s1, f1) x' y' false t' = some (s2, f2)) : s2.sel = none ∧ f2.clicks = 0 := by
  have hs : s1.focused = true ∧ f1.lastPos = none := by
    simp only [clickAt, hf, Bool.false_eq_true, if_false] at h1
    split at h1
    · cases h1
    · rename_i a ha
      split at h1
      · cases h1
      · rename_i b hb
        split at h1
        · cases h1
        · rename_i c hc
          cases h1
          refine ⟨?_, rfl⟩
          unfold TextBox.focus at hc
          split at hc
          · rename_i hb'
            cases hc
            exact hb'
          · unfold TextBox.recalc at hc
            dsimp only at hc
            repeat' split at hc
            all_goals cases hc
            all_goals rfl
  obtain ⟨p, hp⟩ : ∃ p, s1.place e x' y' = some p := by
    cases hp : s1.place e x' y' with
    | some p => exact ⟨p, rfl⟩
    | none =>
      unfold TextBox.place at hp
      simp [clickAt, hs.1, TextBox.toMouse, hp] at h2
  have h0 : (f1.click p t').clicks = 0 := by simp [Focus.click, hs.2]
  rw [clickAt_press hs.1 f1 hp, h0] at h2
  cases h3 : handle e s1 (.press x' y' false 0) with
  | none => rw [h3] at h2; cases h2
  | some s3 =>
    rw [h3] at h2
    cases h2
    obtain ⟨-, -, w, -, -, c3, -, -, c6, -⟩ := C64_click hs.1 h3
    exact ⟨(c6 rfl).2.trans (c3.2.1 rfl), h0⟩

/-- C151 is false for clicks at two points: behind the end of a line they are one place however far they are from one another, and the second one
counts as a double click. -/
theorem C151_apart_violated {e : BoxEnv φ} {s s1 s2 : TextBox φ} {f f1 f2 : Focus Cursor} (hf : s.focused = true) {x y x' y' t t' : Rat} {p : Cursor}
    (hp : s.place e x y = some p) (hp' : s.place e x' y' = some p) (ht : t' - t ≤ 1 / 2) (hnew : f.lastPos ≠ some p)
    (h1 : clickAt e (s, f) x y false t = some (s1, f1)) (h2 : clickAt e (s1, f1) x' y' false t' = some (s2, f2)) :
    f2.clicks = 1 ∧ ∃ a, s2.sel = some a ∧ (e.breaks s.ctrl).prevWord p = some a := by
  have h0 : (f.click p t).clicks = 0 := by simp [Focus.click, hnew]
  rw [clickAt_press hf f hp] at h1
  cases h3 : handle e s (.press x y false (f.click p t).clicks) with
  | none => rw [h3] at h1; cases h1
  | some s3 =>
    rw [h3] at h1
    cases h1
    obtain ⟨-, -, -, -, -, -, -, c5, -⟩ := C64_click hf h3
    have hf1 : s1.focused = true := by rw [c5]; exact hf
    have hp1 : s1.place e x' y' = some p := by rw [c5]; exact hp'
    have hc1 : s1.ctrl = s.ctrl := by rw [c5]
    have h4 : ((f.click p t).click p t').clicks = 1 := by
      have : ((f.click p t).click p t').clicks = (f.click p t).clicks + 1 := by simp only [Focus.click, ht, and_self, if_true]
      rw [this, h0]
    rw [clickAt_press hf1 _ hp1, h4] at h2
    cases h5 : handle e s1 (.press x' y' false 1) with
    | none => rw [h5] at h2; cases h2
    | some s5 =>
      rw [h5] at h2
      cases h2
      obtain ⟨line, pos, -, c1, c2, -, -, -, -, c7, -⟩ := C64_click hf1 h5
      have hpp : pos = p := by
        unfold TextBox.place BreakEnv.closestToPosition at hp1
        rw [c1] at hp1
        simp only [c2] at hp1
        exact Option.some.inj hp1
      subst hpp
      obtain ⟨a, a1, a2, -⟩ := c7 rfl
      exact ⟨h4, a, a1, hc1 ▸ a2⟩

/-! The hypotheses are met: "ab cd e" typed, then one, two, four and five quick clicks between `c` and `d`; two clicks on the box without focus; and one click at the end
of the line, with one a thousand pixels behind it. -/

example : ((run marksBox {} typeWords).bind fun s => clicksAt marksBox 20 2 (s, ⟨fun _ => true, fun _ => true, some 0, 0, none, 0, []⟩) [1]).map
      (fun w => (w.1.sel.map (·.1), w.1.cursor.1, w.2.clicks)) = some (none, 4, 0) ∧
    ((run marksBox {} typeWords).bind fun s => clicksAt marksBox 20 2 (s, ⟨fun _ => true, fun _ => true, some 0, 0, none, 0, []⟩) [1, 5 / 4]).map
      (fun w => (w.1.sel.map (·.1), w.1.cursor.1, w.2.clicks)) = some (some 3, 6, 1) ∧
    ((run marksBox {} typeWords).bind fun s => clicksAt marksBox 20 2 (s, ⟨fun _ => true, fun _ => true, some 0, 0, none, 0, []⟩)
      [1, 5 / 4, 3 / 2, 7 / 4]).map (fun w => (w.1.sel.map (·.1), w.1.cursor.1, w.2.clicks)) = some (some 0, 7, 3) ∧
    ((run marksBox {} typeWords).bind fun s => clicksAt marksBox 20 2 (s, ⟨fun _ => true, fun _ => true, some 0, 0, none, 0, []⟩)
      [1, 5 / 4, 3 / 2, 7 / 4, 2]).map (fun w => (w.1.sel.map (·.1), w.1.cursor.1, w.2.clicks)) = some (none, 4, 4) := by
  refine ⟨?_, ?_, ?_, ?_⟩ <;> decide +kernel

example : ((run marksBox {} (typeWords ++ [.blur])).bind fun s =>
      clicksAt marksBox 20 2 (s, ⟨fun _ => true, fun _ => false, none, 0, none, 0, []⟩) [1, 5 / 4]).map
      (fun w => (w.1.sel.map (·.1), w.1.cursor.1, w.2.clicks)) = some (none, 4, 0) := by decide +kernel

example : ((run marksBox {} typeWords).bind fun s =>
      (clickAt marksBox (s, ⟨fun _ => true, fun _ => true, some 0, 0, none, 0, []⟩) 35 2 false 1).bind fun w =>
        clickAt marksBox w 1035 2 false (5 / 4)).map
      (fun w => (w.1.sel.map (·.1), w.1.cursor.1, w.2.clicks)) = some (some 6, 7, 1) := by decide +kernel

/-- `ab` and `c` in two lines: three quick clicks on the second one. -/
example : walkBox.ShowsLines walkEnv wrapLines (fun b => b ≤ 3) ∧
    (clicksAt walkEnv 3 12 (walkBox, ⟨fun _ => true, fun _ => true, some 0, 0, none, 0, []⟩) [1, 5 / 4, 3 / 2]).map
      (fun w => (w.1.sel.map (·.1), w.1.cursor.1, w.2.clicks)) = some (some 2, 3, 2) :=
  ⟨walkBox_shows, by decide +kernel⟩

end RichText
