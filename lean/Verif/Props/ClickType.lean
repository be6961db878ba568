import Verif.Props.ClickMove
import Verif.Props.RichTyping
import Verif.Props.Characters
/-!
C153: what is typed after a click.
-/
namespace RichText
variable {φ : Type}
open TextBox

/-- A single click, be it on a box without focus: the box has the focus then, the cursor is at the place of the text under the pointer, as it was shown
before the click, and nothing is selected. -/
theorem TextBox.click_cursor {e : BoxEnv φ} (hg : e.Good) {s : TextBox φ} (h : Valid e s) (hs : Shows e s) (hne : s.shown e ≠ []) (x y : Rat)
    {clicks : Nat} (hk : clicks % 4 = 0) {p : Cursor} (hp : s.place e x y = some p) :
    ∃ s', handle e s (.press x y false clicks) = some s' ∧ Sound e s' ∧ s'.focused = true ∧ s'.editable = s.editable ∧ s'.rich = s.rich ∧
      s'.sel = none ∧ s'.cursor = p ∧ s'.text = s.text := by
  obtain ⟨s', h1, h2⟩ := handle_valid hg h (i := .press x y false clicks) ⟨.inl hne, nofun, nofun, hs.small⟩
  cases hf : s.focused with
  | true =>
    obtain ⟨line, pos, s1, c1, c2, c3, c4, c5, c6, -⟩ := C64_click hf h1
    have hpp : pos = p := by
      unfold TextBox.place BreakEnv.closestToPosition at hp
      rw [c1] at hp
      simp only [c2] at hp
      exact Option.some.inj hp
    subst hpp
    have hf' : s'.focused = true := by rw [c5]; exact hf
    obtain ⟨d1, d2⟩ := c6 hk
    exact ⟨s', h1, h2.sound hf', hf', by rw [c5], by rw [c5], d2.trans (c3.2.1 rfl), d1.trans c4, by rw [c5]⟩
  | false =>
    obtain ⟨s1, r1, r2, r3⟩ := recalc_shows hg (s := s) hs.small
    have hsh1 : s1.shown e = s.shown e := by rw [r3]; rfl
    have hrich1 : s1.showsRich = s.showsRich := by rw [r3]; rfl
    have ht1 : s1.text = s.text := by rw [r3]
    have hctrl : s1.ctrl = s.ctrl := by rw [r2.ctrl, hsh1, ← hs.ctrl]
    have hlay : s1.layout = s.layout := by rw [(r2.laid (by rw [hsh1]; exact hne)).1, hrich1, ht1, ← (hs.laid hne).1]
    have hp1 : (e.breaks s1.ctrl).closestToPosition s1.layout e.width e.align x y = some p := by rw [hctrl, hlay]; exact hp
    have h3 := h1
    simp only [handle, TextBox.press, hf, Bool.false_eq_true, if_false, r1, toMouse, hp1] at h3
    cases h4 : setCursor e s1 p false with
    | none => rw [h4] at h3; cases h3
    | some s2 =>
      rw [h4] at h3
      simp only at h3
      obtain ⟨⟨w1, w2, -⟩, w3, -⟩ := setCursor_went h4
      have hf2 : s2.focused = false := by rw [w1, r3]; exact hf
      simp only [TextBox.focus, hf2, Bool.false_eq_true, if_false] at h3
      obtain ⟨s3, q1, -, q3⟩ := recalc_shows hg (s := { s2 with drag := true, focused := true }) (by simp only; rw [w1, r3]; exact hs.small)
      rw [q1] at h3
      cases h3
      have hf' : s'.focused = true := by rw [q3]
      refine ⟨s', h1, h2.sound hf', hf', ?_, ?_, ?_, ?_, ?_⟩
      · rw [q3]; simp only; rw [w1, r3]
      · rw [q3]; simp only; rw [w1, r3]
      · rw [q3]; exact w2 rfl
      · rw [q3]; exact w3
      · rw [q3]; simp only; rw [w1, r3]

/-- What is typed after a click is inserted at the offset of the place under the pointer. -/
theorem TextBox.click_types {e : BoxEnv φ} (hg : e.Good) {s : TextBox φ} (h : Valid e s) (hs : Shows e s) (he : s.editable = true)
    (hne : s.shown e ≠ []) (x y : Rat) {clicks : Nat} (hk : clicks % 4 = 0) {p : Cursor} (hp : s.place e x y = some p) (cs : List Nat)
    (hl : s.text.length + 4 * cs.length < e.limit) :
    ∃ s', run e s ([.press x y false clicks, .release] ++ cs.map .char) = some s' ∧ Editing e s' ∧ s'.rich = s.rich ∧
      s'.text = s.text.take p.1 ++ cs.flatMap utf8Encode ++ s.text.drop p.1 := by
  obtain ⟨s1, h1, h2, h3, h4, h5, h6, h7, h8⟩ := click_cursor hg h hs hne x y hk hp
  have hrel : run e s [.press x y false clicks, .release] = some { s1 with drag := false } := by
    simp only [run, h1]
    simp [handle, h3]
  obtain ⟨s2, b1, b2, b3, b4⟩ := Editing.types hg cs (s := { s1 with drag := false })
    ⟨⟨h2.mode, h2.ctrl, h2.small, h2.cursor, h2.sel, h2.laid⟩, h3, h4.trans he, h6⟩ (by simp only [h8]; exact hl)
  refine ⟨s2, by rw [run_append, hrel]; exact b1, b2, b3.trans h5, ?_⟩
  rw [b4]
  simp only [h7, h8]

/-- C153: a click, be it the one that gives the box its focus, and characters typed then: they stand at the place clicked, and the rest of the text is
as it was.  Missing from the full statement: rich text that is shown without its tags, for which it is false (`C153_rich_violated`), and clicks during
which the pointer moves (`C144_violated`). -/
theorem C153_typed_partial {e : BoxEnv φ} (hg : e.Good) {s : TextBox φ} (h : Sound e s) (he : s.editable = true) (hne : s.text ≠ []) (x y : Rat)
    {clicks : Nat} (hk : clicks % 4 = 0) {p : Cursor} (hp : s.place e x y = some p) (cs : List Nat) (hl : s.text.length + 4 * cs.length < e.limit) :
    ∃ s', run e s ([.press x y false clicks, .release] ++ cs.map .char) = some s' ∧ Editing e s' ∧ p.1 ≤ s.text.length ∧
      s'.shown e = (s.shown e).take p.1 ++ cs.flatMap utf8Encode ++ (s.shown e).drop p.1 := by
  have hsh : s.shown e = s.text := by
    unfold TextBox.shown
    rw [if_neg]
    rintro ⟨r1, r2⟩
    exact r2 ⟨h.mode r1 he, he⟩
  obtain ⟨s', h1, h2, -, h4⟩ := click_types hg (.inl h) h.shows he (by rw [hsh]; exact hne) x y hk hp cs hl
  obtain ⟨s1, c1, c2, -, -, -, -, c7, c8⟩ := click_cursor hg (.inl h) h.shows (by rw [hsh]; exact hne) x y hk hp
  refine ⟨s', h1, h2, ?_, by rw [h2.shown, hsh, h4]⟩
  have := (Valid.cursor hg (.inl c2)).1
  rwa [c7, c8] at this

/-- What happens to a rich text that is shown without its tags: the click looks the place up in the text shown, and what is typed is inserted at that
offset of the source. -/
theorem C153_rich {e : BoxEnv φ} (hg : e.Good) {s : TextBox φ} (h : Valid e s) (hs : Shows e s) (he : s.editable = true)
    (hf : s.focused = false) (hr : s.rich = true) (hne : s.shown e ≠ []) (x y : Rat) {clicks : Nat} (hk : clicks % 4 = 0) {p : Cursor}
    (hp : s.place e x y = some p) (cs : List Nat) (hl : s.text.length + 4 * cs.length < e.limit) :
    s.shown e = e.content s.text ∧ ∃ s', run e s ([.press x y false clicks, .release] ++ cs.map .char) = some s' ∧
      s'.text = s.text.take p.1 ++ cs.flatMap utf8Encode ++ s.text.drop p.1 := by
  obtain ⟨s', h1, -, -, h4⟩ := click_types hg h hs he hne x y hk hp cs hl
  exact ⟨by simp [TextBox.shown, hf, hr], s', h1, h4⟩

/-- C153 is false for rich text: a click behind the underlined `a` and three euro signs, and `x` typed: it is not shown behind them, it tears the first
euro sign. -/
theorem C153_rich_violated : ∃ (e : BoxEnv Nat) (s s' : TextBox Nat) (p : Cursor), e.Good ∧ Shows e s ∧ Valid e s ∧ s.editable = true ∧
    s.place e 50 2 = some p ∧ p.1 = (s.shown e).length ∧ run e s [.press 50 2 false 0, .release, .char 120, .blur] = some s' ∧
    s'.shown e ≠ s.shown e ++ [120] ∧ s'.shown e = b!"<u>a</u>" ++ [0xE2, 0x82, 120, 0xAC, 0xE2, 0x82, 0xAC, 0xE2, 0x82, 0xAC] := by
  obtain ⟨s, h1, h2, h3⟩ := recalc_shows utfEnv_good (s := { rich := true, text := markup }) (by decide +kernel)
  have hrun : ((TextBox.setText utfEnv { rich := true } markup).map fun s => (s.shown utfEnv, (s.place utfEnv 50 2).map (·.1))) =
      some (b!"a" ++ [0xE2, 0x82, 0xAC, 0xE2, 0x82, 0xAC, 0xE2, 0x82, 0xAC], some 10) := by decide +kernel
  have hrun2 : ((TextBox.setText utfEnv { rich := true } markup).bind fun s =>
      TextBox.run utfEnv s [.press 50 2 false 0, .release, .char 120, .blur]).map (fun s => s.shown utfEnv) =
      some (b!"<u>a</u>" ++ [0xE2, 0x82, 120, 0xAC, 0xE2, 0x82, 0xAC, 0xE2, 0x82, 0xAC]) := by decide +kernel
  have hs : TextBox.setText utfEnv { rich := true } markup = some s := h1
  rw [hs] at hrun hrun2
  simp only [Option.map_some, Option.some.injEq, Prod.mk.injEq, Option.bind_some] at hrun hrun2
  obtain ⟨p, p1, p2⟩ := Option.map_eq_some_iff.1 hrun.2
  obtain ⟨s', q1, q2⟩ := Option.map_eq_some_iff.1 hrun2
  refine ⟨utfEnv, s, s', p, utfEnv_good, h2, .inr ⟨⟨?_, ?_, ?_⟩, h2.small, ?_, ?_⟩, ?_, p1, ?_, q1, ?_, q2⟩
  · rw [h3]
  · rw [h3]
  · rw [h3]
  · rw [h3]; exact Nat.zero_le _
  · rw [h3]; nofun
  · rw [h3]
  · rw [p2, hrun.1]; rfl
  · rw [q2, hrun.1]; decide +kernel

/-! The hypotheses are met: "ab cd e" in a box that lost its focus, and a click between `c` and `d`. -/

example : ((run marksBox {} (typeWords ++ [.blur])).map fun s => (s.focused, (s.place marksBox 20 2).map (·.1))) = some (false, some 4) ∧
    (run marksBox {} (typeWords ++ [.blur] ++ [.press 20 2 false 0, .release, .char 120, .char 121])).map (fun s => (s.text, s.cursor.1)) =
      some (b!"ab cxyd e", 6) := by decide +kernel

end RichText
