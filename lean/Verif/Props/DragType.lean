import Verif.Props.TakeBack
/-!
C144: what the pointer is drawn over is what is copied and what typing replaces.
-/
namespace RichText
variable {φ : Type _}
namespace TextBox

/-- The place in the text a point of the box stands for. -/
def place (e : BoxEnv φ) (s : TextBox φ) (x y : Rat) : Option Cursor :=
  (e.breaks s.ctrl).closestToPosition s.layout e.width e.align x y

/-- The cursor goes to the place under the pointer. -/
theorem toMouse_place {e : BoxEnv φ} (hg : e.Good) {s : TextBox φ} (h : Sound e s) (hne : s.shown e ≠ []) (x y : Rat) (b : Bool) :
    ∃ s', toMouse e s x y b = some s' ∧ Sound e s' ∧ Moved s s' ∧ s.place e x y = some s'.cursor ∧
      s'.sel = if b then some (s.sel.getD s.cursor) else none := by
  obtain ⟨s', h1, h2, h3⟩ := toMouse_sound hg h hne x y b
  refine ⟨s', h1, h2, h3, ?_⟩
  unfold toMouse at h1
  split at h1
  · cases h1
  · rename_i c hc
    unfold setCursor at h1
    simp only at h1
    split at h1
    · cases h1
    · cases h1
      refine ⟨hc, ?_⟩
      cases b <;> cases s.sel <;> rfl

/-- The pointer moves on while the button is held. -/
theorem drags {e : BoxEnv φ} (hg : e.Good) : ∀ (ms : List (Rat × Rat)) {s : TextBox φ}, Sound e s → s.focused = true → s.drag = true →
    s.shown e ≠ [] → ∀ x y, ∃ s', run e s (ms.map (fun m => .move m.1 m.2) ++ [.move x y]) = some s' ∧ Sound e s' ∧ Moved s s' ∧
      s.place e x y = some s'.cursor ∧ s'.sel = some (s.sel.getD s.cursor)
  | [], s, h, hf, hd, hne, x, y => by
    obtain ⟨s', h1, h2, h3, h4, h5⟩ := toMouse_place hg h hne x y true
    exact ⟨s', by simp [run, handle, hf, hd, h1], h2, h3, h4, h5⟩
  | m :: ms, s, h, hf, hd, hne, x, y => by
    obtain ⟨s1, h1, h2, h3, -, h5⟩ := toMouse_place hg h hne m.1 m.2 true
    have hsh : s1.shown e = s.shown e := by rw [h3]; rfl
    obtain ⟨s2, g1, g2, g3, g4, g5⟩ := drags hg ms h2 (by rw [h3]; exact hf) (by rw [h3]; exact hd) (by rw [hsh]; exact hne) x y
    have hpl : s1.place e x y = s.place e x y := by rw [h3]; rfl
    refine ⟨s2, ?_, g2, ?_, by rw [← hpl]; exact g4, by rw [g5, h5]; rfl⟩
    · rw [List.map_cons, List.cons_append, run]
      simp only [handle, hf, hd, Bool.and_self, if_true, h1]
      exact g1
    · unfold Moved at g3 h3 ⊢
      rw [g3, h3]

/-- The button is pressed once in a focused box, the pointer moved, at last to `x'`, `y'`, and the button released. -/
theorem dragged {e : BoxEnv φ} (hg : e.Good) {s : TextBox φ} (h : Sound e s) (hf : s.focused = true) (hne : s.shown e ≠ []) (x y : Rat) (clicks : Nat)
    (hc : clicks % 4 = 0) (ms : List (Rat × Rat)) (x' y' : Rat) :
    ∃ s' p q, run e s (.press x y false clicks :: (ms.map (fun m => .move m.1 m.2) ++ [.move x' y', .release])) = some s' ∧ Sound e s' ∧
      s.place e x y = some p ∧ s.place e x' y' = some q ∧ s'.sel = some p ∧ s'.cursor = q ∧ s'.focused = true ∧ s'.editable = s.editable ∧
      s'.text = s.text ∧ s'.clip = s.clip ∧ s'.rich = s.rich := by
  obtain ⟨s1, a1, a2, a3, a4, a5⟩ := toMouse_place hg h hne x y false
  have hp : handle e s (.press x y false clicks) = some { s1 with drag := true } := by
    simp only [handle, TextBox.press, hf, if_true, a1, clickSelect, hc]
  have hs1 : Sound e { s1 with drag := true } := ⟨a2.mode, a2.ctrl, a2.small, a2.cursor, a2.sel, a2.laid⟩
  have hf1 : s1.focused = true := by rw [a3]; exact hf
  have hsh : ({ s1 with drag := true } : TextBox φ).shown e = s.shown e := by rw [a3]; rfl
  have hpl : ({ s1 with drag := true } : TextBox φ).place e x' y' = s.place e x' y' := by rw [a3]; rfl
  obtain ⟨s2, b1, b2, b3, b4, b5⟩ := drags hg ms hs1 hf1 rfl (by rw [hsh]; exact hne) x' y'
  have hf2 : s2.focused = true := by rw [b3]; exact hf1
  refine ⟨{ s2 with drag := false }, s1.cursor, s2.cursor, ?_, ⟨b2.mode, b2.ctrl, b2.small, b2.cursor, b2.sel, b2.laid⟩, a4, ?_, ?_, rfl, hf2, ?_, ?_, ?_, ?_⟩
  · rw [run, hp]
    simp only
    rw [show (ms.map (fun m => Input.move m.1 m.2) ++ [.move x' y', .release]) = (ms.map (fun m => Input.move m.1 m.2) ++ [.move x' y']) ++ [.release] by
      simp, run_append, b1]
    simp [run, handle, hf2]
  · rw [← hpl]; exact b4
  · have : s1.sel = none := a5
    show s2.sel = _
    rw [b5]
    simp [this]
  · show s2.editable = _; rw [b3, a3]
  · show s2.text = _; rw [b3, a3]
  · show s2.clip = _; rw [b3, a3]
  · show s2.rich = _; rw [b3, a3]

/-- A character typed. -/
theorem type_any {e : BoxEnv φ} (hg : e.Good) {s : TextBox φ} (h : Sound e s) (hf : s.focused = true) (he : s.editable = true) (c : Nat)
    (hl : s.text.length + 4 < e.limit) : ∃ s', handle e s (.char c) = some s' ∧ Sound e s' ∧ s'.focused = true ∧ s'.editable = true := by
  have hp : s.showsRich = false := by simp [showsRich, hf, he]
  have h4 := utf8Encode_length c
  obtain ⟨s1, h1, h2, h3, -, h6⟩ := removeHighlighted_sound hg h hp
  obtain ⟨s2, g1, g2, g3⟩ := insertText_sound hg h2 h6 (ins := utf8Encode c) (by omega)
  have h1' := h1
  have hfl : s1.focused = true ∧ s1.editable = true := by
    unfold removeHighlighted at h1'
    split at h1'
    · cases h1'; exact ⟨hf, he⟩
    · split at h1'
      · cases h1'; exact ⟨hf, he⟩
      · split at h1'
        · have := (removeText_fields h1').2
          rw [this]; exact ⟨hf, he⟩
        · have := (removeText_fields h1').2
          rw [this]; exact ⟨hf, he⟩
  have hi := insertText_fields g1
  refine ⟨s2, by simp only [handle, hf, he, Bool.and_self, if_true, insertTyped, h1, g1], g2, ?_, ?_⟩
  · rw [hi]; exact hfl.1
  · rw [hi]; exact hfl.2

/-- Characters typed over a selection. -/
theorem types_over {e : BoxEnv φ} (hg : e.Good) {s : TextBox φ} (h : Sound e s) (hf : s.focused = true) (he : s.editable = true) {p : Cursor}
    (hsel : s.sel = some p) (hne : p ≠ s.cursor) (c : Nat) (cs : List Nat) (hl : s.text.length + 4 * (cs.length + 1) < e.limit) :
    ∃ s', run e s ((c :: cs).map .char) = some s' ∧ Editing e s' ∧
      s'.text = s.text.take (min p.1 s.cursor.1) ++ (c :: cs).flatMap utf8Encode ++ s.text.drop (max p.1 s.cursor.1) ∧
      s'.cursor.1 = min p.1 s.cursor.1 + ((c :: cs).flatMap utf8Encode).length := by
  obtain ⟨s1, a1, a2, a3, a4⟩ := type_any hg h hf he c (by omega)
  have hsh := shown_plain (e := e) (s := s) (by simp [showsRich, hf, he])
  have hcur := h.cursor
  have hse := h.sel _ hsel
  rw [hsh] at hcur hse
  obtain ⟨a, b, -, r2, r3, r4, r5⟩ := C53_type_partial hf he (by rw [hsel]; exact fun h0 => hne (Option.some.inj h0)) hcur
    (fun c hc => by rw [hsel] at hc; cases hc; exact hse) a1
  obtain ⟨rfl, rfl⟩ := r2 _ hsel
  have hle := utf8Encode_length c
  have hl1 : (s.text.take (min p.1 s.cursor.1)).length = min p.1 s.cursor.1 := by rw [List.length_take]; omega
  have hlen : s1.text.length ≤ s.text.length + 4 := by
    rw [r3]; simp only [List.length_append, List.length_take, List.length_drop]; omega
  obtain ⟨s2, b1, b2, b3, b4, -⟩ := Editing.typeAll hg cs (s := s1) ⟨a2, a3, a4, r5⟩ (by omega)
  refine ⟨s2, by rw [List.map_cons, run, a1]; exact b1, b2, ?_, ?_⟩
  · rw [b3, r4, r3, List.take_left' (by rw [List.length_append, hl1]), List.drop_left' (by rw [List.length_append, hl1])]
    simp
  · rw [b4, r4]; simp [Nat.add_assoc]

/-- Characters typed with nothing selected, though a selection was started: the second character replaces the first. -/
theorem types_empty {e : BoxEnv φ} (hg : e.Good) {s : TextBox φ} (h : Sound e s) (hf : s.focused = true) (he : s.editable = true)
    (hsel : s.sel = some s.cursor) (c : Nat) (cs : List Nat) (hl : s.text.length + 4 * (cs.length + 1) < e.limit) :
    ∃ s', run e s ((c :: cs).map .char) = some s' ∧ Sound e s' ∧
      s'.text = s.text.take s.cursor.1 ++ (if cs = [] then utf8Encode c else cs.flatMap utf8Encode) ++ s.text.drop s.cursor.1 := by
  obtain ⟨s1, a1, a2, a3, a4⟩ := type_any hg h hf he c (by omega)
  have hsh := shown_plain (e := e) (s := s) (by simp [showsRich, hf, he])
  have hcur := h.cursor
  rw [hsh] at hcur
  have h1 := a1
  simp only [handle, hf, he, Bool.and_self, if_true, insertTyped, removeHighlighted, hsel] at h1
  have h4 := insertText_fields h1
  have ht : s1.text = typedInto s.text s.cursor.1 c := by rw [h4]; rfl
  have hc1 : s1.cursor = (s.cursor.1 + (utf8Encode c).length, .default) := by rw [h4]
  have hs1 : s1.sel = some s.cursor := by rw [h4]; exact hsel
  have hpos := utf8Encode_pos c
  have hle := utf8Encode_length c
  have hlen := typedInto_length c hcur
  cases cs with
  | nil => exact ⟨s1, by simp [run, a1], a2, by rw [ht]; rfl⟩
  | cons d ds =>
    rw [List.length_cons] at hl
    obtain ⟨s2, b1, b2, b3, -⟩ := types_over hg a2 a3 a4 hs1
      (by rw [hc1]; intro h0; have := congrArg Prod.fst h0; simp only at this; omega) d ds (by rw [ht, hlen]; omega)
    refine ⟨s2, by rw [List.map_cons, run, a1]; exact b1, b2.sound, ?_⟩
    have hl1 : (s.text.take s.cursor.1).length = s.cursor.1 := by rw [List.length_take]; omega
    rw [b3, hc1, ht]
    simp only
    rw [Nat.min_eq_left (by omega), Nat.max_eq_right (by omega), if_neg (by simp)]
    unfold typedInto
    rw [List.append_assoc (s.text.take s.cursor.1) (utf8Encode c), List.take_left' hl1, ← List.append_assoc,
      List.drop_left' (by rw [List.length_append, hl1])]

end TextBox

open TextBox

/-- C144: the button is pressed once in a focused text box, the pointer moved, along whatever way, and the button released.  Copy then copies
what is between the place where it was pressed and the place where it was released. -/
theorem C144_copy {e : BoxEnv φ} (hg : e.Good) {s : TextBox φ} (h : Sound e s) (hf : s.focused = true) (hne : s.shown e ≠ []) (x y : Rat) (clicks : Nat)
    (hc : clicks % 4 = 0) (ms : List (Rat × Rat)) (x' y' : Rat) (hnul : (0 : UInt8) ∉ s.text) (hpl : s.showsRich = false) :
    ∃ p q, s.place e x y = some p ∧ s.place e x' y' = some q ∧ p.1 ≤ s.text.length ∧ q.1 ≤ s.text.length ∧
      (p.1 ≠ q.1 → ∃ s', run e s (.press x y false clicks :: (ms.map (fun m => .move m.1 m.2) ++ [.move x' y', .release]) ++ [.copy]) = some s' ∧
        s'.text = s.text ∧ s'.clip = some ((s.text.take (max p.1 q.1)).drop (min p.1 q.1))) := by
  obtain ⟨s1, p, q, a1, a2, a3, a4, a5, a6, a7, a8, a9, -, a10⟩ := dragged hg h hf hne x y clicks hc ms x' y'
  have hpl1 : s1.showsRich = false := by
    rw [← hpl]; simp [showsRich, a7, hf, a8, a10]
  have hsh := shown_plain (e := e) hpl1
  have h1 := a2.cursor
  have h2 := a2.sel _ a5
  rw [hsh, a9] at h1 h2
  rw [a6] at h1
  refine ⟨p, q, a3, a4, h2, h1, fun hpq => ?_⟩
  have hcp : handle e s1 .copy = some { s1 with clip := some (((s1.text.drop (min p.1 s1.cursor.1)).take (max p.1 s1.cursor.1 - min p.1 s1.cursor.1)).takeWhile (· ≠ 0)) } := by
    have : min p.1 q.1 ≤ s.text.length := by omega
    simp only [handle, a7, if_true, key, TextBox.copy, a5, a6, hpq, if_false, a9, this]
  have hrun := (run_append e (.press x y false clicks :: (ms.map (fun m => .move m.1 m.2) ++ [.move x' y', .release])) [.copy] s)
  rw [a1, Option.bind_some, run, hcp] at hrun
  refine ⟨_, hrun, a9, ?_⟩
  show some _ = some _
  rw [a9, a6, takeWhile_all, List.drop_take]
  intro b hb
  have := List.mem_of_mem_drop (List.mem_of_mem_take hb)
  simp only [ne_eq, decide_eq_true_eq]
  rintro rfl
  exact hnul this

/-- C144 (partial: the two places differ): what is typed then replaces what is between them. -/
theorem C144_type_partial {e : BoxEnv φ} (hg : e.Good) {s : TextBox φ} (h : Sound e s) (hf : s.focused = true) (he : s.editable = true)
    (hne : s.shown e ≠ []) (x y : Rat) (clicks : Nat) (hc : clicks % 4 = 0) (ms : List (Rat × Rat)) (x' y' : Rat) (c : Nat) (cs : List Nat)
    (hl : s.text.length + 4 * (cs.length + 1) < e.limit) :
    ∃ p q s', s.place e x y = some p ∧ s.place e x' y' = some q ∧
      run e s (.press x y false clicks :: (ms.map (fun m => .move m.1 m.2) ++ [.move x' y', .release]) ++ (c :: cs).map .char) = some s' ∧
      Sound e s' ∧
      (p ≠ q → s'.text = s.text.take (min p.1 q.1) ++ (c :: cs).flatMap utf8Encode ++ s.text.drop (max p.1 q.1)) ∧
      (p = q → s'.text = s.text.take p.1 ++ (if cs = [] then utf8Encode c else cs.flatMap utf8Encode) ++ s.text.drop p.1) := by
  obtain ⟨s1, p, q, a1, a2, a3, a4, a5, a6, a7, a8, a9, -⟩ := dragged hg h hf hne x y clicks hc ms x' y'
  by_cases hpq : p = q
  · obtain ⟨s2, b1, b2, b3⟩ := types_empty hg a2 a7 (a8.trans he) (by rw [a5, a6, hpq]) c cs (by rw [a9]; exact hl)
    refine ⟨p, q, s2, a3, a4, by rw [run_append, a1]; exact b1, b2, fun h0 => absurd hpq h0, fun _ => ?_⟩
    rw [b3, a6, a9, hpq]
  · obtain ⟨s2, b1, b2, b3, -⟩ := types_over hg a2 a7 (a8.trans he) a5 (by rw [a6]; exact hpq) c cs (by rw [a9]; exact hl)
    refine ⟨p, q, s2, a3, a4, by rw [run_append, a1]; exact b1, b2.sound, fun _ => ?_, fun h0 => absurd h0 hpq⟩
    rw [b3, a6, a9]

/-- C144: if the pointer does not move, what is typed is inserted where the button was pressed. -/
theorem C144_click {e : BoxEnv φ} (hg : e.Good) {s : TextBox φ} (h : Sound e s) (hf : s.focused = true) (he : s.editable = true)
    (hne : s.shown e ≠ []) (x y : Rat) (clicks : Nat) (hc : clicks % 4 = 0) (cs : List Nat) (hl : s.text.length + 4 * cs.length < e.limit) :
    ∃ p s', s.place e x y = some p ∧ run e s ([.press x y false clicks, .release] ++ cs.map .char) = some s' ∧ Editing e s' ∧
      s'.text = s.text.take p.1 ++ cs.flatMap utf8Encode ++ s.text.drop p.1 := by
  obtain ⟨s1, a1, a2, a3, a4, a5⟩ := toMouse_place hg h hne x y false
  have hf1 : s1.focused = true := by rw [a3]; exact hf
  have ht1 : s1.text = s.text := by rw [a3]
  have hp : run e s [.press x y false clicks, .release] = some { s1 with drag := false } := by
    simp only [run, handle, TextBox.press, hf, if_true, a1, clickSelect, hc, hf1]
  obtain ⟨s2, b1, b2, b3, -⟩ := Editing.typeAll hg cs (s := { s1 with drag := false })
    ⟨⟨a2.mode, a2.ctrl, a2.small, a2.cursor, a2.sel, a2.laid⟩, hf1, by show s1.editable = true; rw [a3]; exact he, a5⟩ (by simp only [ht1]; exact hl)
  refine ⟨s1.cursor, s2, a4, by rw [run_append, hp]; exact b1, b2, ?_⟩
  rw [b3]
  simp only [ht1]

/-! The hypotheses are met: "abcd" in a box in which each character is five wide; the pointer is drawn from the front of `b` to the front of `d`,
with a detour, or from there back. -/

/-- Inputs that type "abcd" into an empty box. -/
def typeAbcd : List Input := [.focus, .char 97, .char 98, .char 99, .char 100]

example : ∃ s, run marksBox {} typeAbcd = some s ∧ Sound marksBox s ∧ s.focused = true ∧ s.editable = true ∧ s.shown marksBox ≠ [] ∧
    s.showsRich = false ∧ (0 : UInt8) ∉ s.text := by
  have h : Editing marksBox { focused := true } := marks_editing
  obtain ⟨s, h1, h2, h3, -⟩ := h.typeAll marksBox_good [97, 98, 99, 100] (by decide +kernel)
  have ht : s.text = b!"abcd" := by rw [h3]; decide +kernel
  refine ⟨s, ?_, h2.sound, h2.focused, h2.editable, ?_, ?_, ?_⟩
  · exact h1
  · rw [h2.shown, ht]; decide
  · simp [showsRich, h2.focused, h2.editable]
  · rw [ht]; decide

example : (run marksBox {} typeAbcd).map (fun s => ((s.place marksBox 5 2).map (·.1), (s.place marksBox 15 2).map (·.1))) = some (some 1, some 3) ∧
    (run marksBox {} (typeAbcd ++ [.press 5 2 false 0, .move 40 2, .move 15 2, .release, .copy])).map (·.clip) = some (some b!"bc") ∧
    (run marksBox {} (typeAbcd ++ [.press 15 2 false 0, .move 5 2, .release, .copy])).map (·.clip) = some (some b!"bc") ∧
    (run marksBox {} (typeAbcd ++ [.press 15 2 false 0, .move 5 2, .release, .char 120, .char 233])).map (·.text) =
      some (b!"ax" ++ [0xC3, 0xA9] ++ b!"d") := by decide +kernel

/-- C144 is false as stated: if the pointer moves and comes back, or does not leave the place, then of two characters typed the first is lost. -/
theorem C144_violated : ∃ (e : BoxEnv Nat), e.Good ∧
    (run e {} [.focus, .char 97, .char 98, .press 5 2 false 0, .release, .char 120, .char 121]).map (·.text) = some b!"axyb" ∧
    (run e {} [.focus, .char 97, .char 98, .press 5 2 false 0, .move 5 2, .release, .char 120, .char 121]).map (·.text) = some b!"ayb" :=
  ⟨marksBox, marksBox_good, by decide +kernel, by decide +kernel⟩

end RichText
