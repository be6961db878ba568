import Verif.Props.Clipboard
/-!
C158: the keys that move the caret with shift held down.
-/
namespace RichText
variable {φ : Type}
open TextBox
namespace TextBox

/-- The keys that move the caret, with and without Ctrl. -/
inductive MoveKey where
  | up | down | left (ctrl : Bool) | right (ctrl : Bool) | home (ctrl : Bool) | «end» (ctrl : Bool)

/-- The key pressed with or without shift. -/
def MoveKey.press (shift : Bool) : MoveKey → Input
  | .up => .up shift
  | .down => .down shift
  | .left ctrl => .left shift ctrl
  | .right ctrl => .right shift ctrl
  | .home ctrl => .home shift ctrl
  | .end ctrl => .end shift ctrl

/-- With nothing selected. -/
def unselected (s : TextBox φ) : TextBox φ := { s with sel := none }

section
variable {e : BoxEnv φ} {s s' : TextBox φ}

theorem setCursor_unselected (c : Cursor) : setCursor e (unselected s) c false = (setCursor e s c true).map unselected := by
  unfold setCursor unselected
  simp only [Bool.false_eq_true, if_false, if_true]
  cases s.layout.cursorPixelPos e.width e.align c.1 c.2 <;> rfl

theorem match_unselected (o : Option Cursor) : (match o with | none => none | some c => setCursor e (unselected s) c false) =
    (match o with | none => none | some c => setCursor e s c true : Option (TextBox φ)).map unselected := by
  cases o with
  | none => rfl
  | some c => exact setCursor_unselected c

/-- A key moves the caret to the same place with and without shift. -/
theorem press_unselected (hf : s.focused = true) (k : MoveKey) :
    handle e (unselected s) (k.press false) = (handle e s (k.press true)).map unselected := by
  have hf' : (unselected s).focused = true := hf
  cases k <;> simp only [MoveKey.press, handle, hf, hf', if_true, key]
  case up =>
    unfold prevLine
    show (if s.info.line > 0 then _ else _) = _
    split
    · exact match_unselected _
    · exact setCursor_unselected _
  case down =>
    unfold nextLine
    show (if s.layout.lines.length = 0 ∨ s.info.line < s.layout.lines.length - 1 then _ else _) = _
    split
    · exact match_unselected _
    · exact setCursor_unselected _
  case left =>
    split
    · exact match_unselected _
    · exact setCursor_unselected _
  case right =>
    split
    · exact match_unselected _
    · exact setCursor_unselected _
  case home =>
    split
    · exact setCursor_unselected _
    · exact match_unselected _
  case «end» =>
    split
    · exact setCursor_unselected _
    · exact match_unselected _

/-- What a key with shift does to the selection, and what it leaves alone. -/
def Widens (s s' : TextBox φ) : Prop :=
  s' = { s with sel := some (s.sel.getD s.cursor), cursor := s'.cursor, info := s'.info, timer := 0, flash := 0 }

theorem setCursor_widens {c : Cursor} (h : setCursor e s c true = some s') : Widens s s' := by
  unfold setCursor at h
  simp only [if_true] at h
  split at h
  · cases h
  · cases h
    unfold Widens
    cases s.sel <;> rfl

theorem match_widens {o : Option Cursor} (h : (match o with | none => none | some c => setCursor e s c true) = some s') : Widens s s' := by
  cases o with
  | none => cases h
  | some c => exact setCursor_widens h

theorem press_widens (hf : s.focused = true) (k : MoveKey) (h : handle e s (k.press true) = some s') : Widens s s' := by
  cases k <;> simp only [MoveKey.press, handle, hf, if_true, key] at h
  case up =>
    unfold prevLine at h
    split at h
    · exact match_widens h
    · exact setCursor_widens h
  case down =>
    unfold nextLine at h
    split at h
    · exact match_widens h
    · exact setCursor_widens h
  case left =>
    split at h
    · exact match_widens h
    · exact setCursor_widens h
  case right =>
    split at h
    · exact match_widens h
    · exact setCursor_widens h
  case home =>
    split at h
    · exact setCursor_widens h
    · exact match_widens h
  case «end» =>
    split at h
    · exact setCursor_widens h
    · exact match_widens h

/-- Keys with shift from a sound state. -/
theorem presses_sound (hg : e.Good) : ∀ (k : MoveKey) (ks : List MoveKey) {s : TextBox φ}, Sound e s → s.focused = true → s.shown e ≠ [] →
    ∃ s', run e s ((k :: ks).map (MoveKey.press true)) = some s' ∧ Sound e s' ∧ Widens s s'
  | k, ks, s, h, hf, hne => by
    have hal : Allowed e s (k.press true) := by cases k <;> exact ⟨.inl hne, nofun, nofun, h.small⟩
    obtain ⟨s1, h1, h2⟩ := handle_sound hg h hal
    have hx := press_widens hf k h1
    have hf1 : s1.focused = true := by rw [hx]; exact hf
    have hs1 := h2.sound hf1
    have hsh : s1.shown e = s.shown e := by rw [hx]; rfl
    cases ks with
    | nil => exact ⟨s1, by simp only [List.map_cons, List.map_nil, run, h1], hs1, hx⟩
    | cons k' ks =>
      obtain ⟨s2, b1, b2, b3⟩ := presses_sound hg k' ks hs1 hf1 (by rw [hsh]; exact hne)
      refine ⟨s2, ?_, b2, ?_⟩
      · rw [List.map_cons, run, h1]
        exact b1
      · unfold Widens at hx b3 ⊢
        rw [b3, hx]
        rfl

end
end TextBox

section
variable {e : BoxEnv φ}

/-- C158: with shift held down the keys take the caret where they take it without, and differ in nothing but the selection. -/
theorem C158_same_caret : ∀ (ks : List MoveKey) {s : TextBox φ}, s.focused = true →
    run e { s with sel := none } (ks.map (MoveKey.press false)) = (run e s (ks.map (MoveKey.press true))).map (fun s' => { s' with sel := none })
  | [], s, _ => rfl
  | k :: ks, s, hf => by
    have h := press_unselected (e := e) hf k
    change handle e { s with sel := none } (k.press false) = _ at h
    simp only [List.map_cons, run, h]
    cases h1 : handle e s (k.press true) with
    | none => rfl
    | some s1 =>
      have hx := press_widens hf k h1
      exact C158_same_caret ks (s := s1) (by rw [hx]; exact hf)

/-- C158: in a focused text box with nothing selected, any keys with shift select from where the caret was to where the same keys without shift take
it; copying gives what is between the two, and the text is left as it is. -/
theorem C158_selects (hg : e.Good) {s : TextBox φ} (h : Sound e s) (hf : s.focused = true) (hne : s.shown e ≠ []) (hsel : s.sel = none)
    (hpl : s.showsRich = false) (hnul : (0 : UInt8) ∉ s.text) (k : MoveKey) (ks : List MoveKey) :
    ∃ s0 s', run e s ((k :: ks).map (MoveKey.press false)) = some s0 ∧ run e s ((k :: ks).map (MoveKey.press true)) = some s' ∧
      s'.sel = some s.cursor ∧ s'.cursor = s0.cursor ∧ s'.text = s.text ∧
      (s.cursor.1 ≠ s0.cursor.1 → ∃ s2, handle e s' .copy = some s2 ∧ s2.text = s.text ∧
        s2.clip = some ((s.text.take (max s.cursor.1 s0.cursor.1)).drop (min s.cursor.1 s0.cursor.1))) := by
  obtain ⟨s', a1, a2, a3⟩ := presses_sound hg k ks h hf hne
  have hw := C158_same_caret (e := e) (k :: ks) hf
  have hs : ({ s with sel := none } : TextBox φ) = s := by rw [← hsel]
  rw [hs, a1] at hw
  have a5 : s'.sel = some s.cursor := by rw [a3, hsel]; rfl
  have ht : s'.text = s.text := by rw [a3]
  have hf' : s'.focused = true := by rw [a3]; exact hf
  refine ⟨_, s', hw, a1, a5, rfl, ht, fun hpq => ?_⟩
  change s.cursor.1 ≠ s'.cursor.1 at hpq
  have hle := h.cursor
  rw [shown_plain hpl] at hle
  have hcp : handle e s' .copy = some { s' with clip := some (((s'.text.drop (min s.cursor.1 s'.cursor.1)).take
      (max s.cursor.1 s'.cursor.1 - min s.cursor.1 s'.cursor.1)).takeWhile (· ≠ 0)) } := by
    have : min s.cursor.1 s'.cursor.1 ≤ s.text.length := by omega
    simp only [handle, hf', if_true, key, TextBox.copy, a5, hpq, if_false, ht, this]
  refine ⟨_, hcp, ht, ?_⟩
  show some _ = some _
  rw [ht, takeWhile_all, List.drop_take]
  intro b hb
  have := List.mem_of_mem_drop (List.mem_of_mem_take hb)
  simp only [ne_eq, decide_eq_true_eq]
  rintro rfl
  exact hnul this

/-- C158 (partial: the caret is not where it was before): what is typed then replaces what the keys went over. -/
theorem C158_typed_partial (hg : e.Good) {s s0 : TextBox φ} (h : Editing e s) (hne : s.text ≠ []) (k : MoveKey) (ks : List MoveKey)
    (h0 : run e s ((k :: ks).map (MoveKey.press false)) = some s0) (hc0 : s.cursor ≠ s0.cursor) (c : Nat) (cs : List Nat)
    (hl : s.text.length + 4 * (cs.length + 1) < e.limit) :
    ∃ s', run e s ((k :: ks).map (MoveKey.press true) ++ (c :: cs).map .char) = some s' ∧ Editing e s' ∧
      s'.text = s.text.take (min s.cursor.1 s0.cursor.1) ++ (c :: cs).flatMap utf8Encode ++ s.text.drop (max s.cursor.1 s0.cursor.1) := by
  obtain ⟨s1, a1, a2, a3⟩ := presses_sound hg k ks h.sound h.focused (by rw [h.shown]; exact hne)
  have hw := C158_same_caret (e := e) (k :: ks) h.focused
  have hs : ({ s with sel := none } : TextBox φ) = s := by rw [← h.sel]
  rw [hs, a1, h0] at hw
  cases hw
  have a5 : s1.sel = some s.cursor := by rw [a3, h.sel]; rfl
  have ht : s1.text = s.text := by rw [a3]
  obtain ⟨s2, b1, b2, b3, -⟩ := types_over hg a2 (by rw [a3]; exact h.focused) (by rw [a3]; exact h.editable) a5 hc0 c cs (by rw [ht]; exact hl)
  exact ⟨s2, by rw [run_append, a1]; exact b1, b2, by rw [b3, ht]⟩

/-- C158 (partial: the caret is not where it was before): Backspace, Delete and Cut remove what the keys went over. -/
theorem C158_removed_partial (hg : e.Good) {s s0 : TextBox φ} (h : Editing e s) (hne : s.text ≠ []) (k : MoveKey) (ks : List MoveKey)
    (h0 : run e s ((k :: ks).map (MoveKey.press false)) = some s0) (hc0 : s.cursor ≠ s0.cursor) {i : Input} (hi : RemovesSelection i) :
    ∃ s', run e s ((k :: ks).map (MoveKey.press true) ++ [i]) = some s' ∧ s'.sel = none ∧ s'.cursor.1 = min s.cursor.1 s0.cursor.1 ∧
      s'.text = s.text.take (min s.cursor.1 s0.cursor.1) ++ s.text.drop (max s.cursor.1 s0.cursor.1) := by
  obtain ⟨s1, a1, a2, a3⟩ := presses_sound hg k ks h.sound h.focused (by rw [h.shown]; exact hne)
  have hw := C158_same_caret (e := e) (k :: ks) h.focused
  have hs : ({ s with sel := none } : TextBox φ) = s := by rw [← h.sel]
  rw [hs, a1, h0] at hw
  cases hw
  have a5 : s1.sel = some s.cursor := by rw [a3, h.sel]; rfl
  have ht : s1.text = s.text := by rw [a3]
  have hf1 : s1.focused = true := by rw [a3]; exact h.focused
  have he1 : s1.editable = true := by rw [a3]; exact h.editable
  have hsh : s1.shown e = s.shown e := by rw [a3]; rfl
  have hal : Allowed e s1 i := by
    rcases hi with ⟨c, rfl⟩ | ⟨c, rfl⟩ | rfl <;>
      exact ⟨.inl (by rw [hsh, h.shown]; exact hne), fun _ => .inl he1, nofun, a2.small⟩
  obtain ⟨s2, b1, -⟩ := handle_sound hg a2 hal
  obtain ⟨a, b, -, r2, r3, r4, r5⟩ := C53_remove_selection_partial hf1 a5 hc0 (by
    rcases hi with h1 | h1 | h1
    · exact .inl h1
    · exact .inr (.inl h1)
    · exact .inr (.inr ⟨h1, he1⟩)) b1
  obtain ⟨rfl, rfl⟩ := r2 _ a5
  refine ⟨s2, by rw [run_append, a1]; simp only [Option.bind_some, run, b1], r5, ?_, ?_⟩
  · rw [r4]; rfl
  · rw [r3, ht]; simp

/-- C158 is false for keys that take the caret back to where it was: in every state, of two or more characters typed then the first is lost. -/
theorem C158_back_violated (hg : e.Good) {s s0 : TextBox φ} (h : Editing e s) (hne : s.text ≠ []) (k : MoveKey) (ks : List MoveKey)
    (h0 : run e s ((k :: ks).map (MoveKey.press false)) = some s0) (hc0 : s0.cursor = s.cursor) (c d : Nat) (cs : List Nat)
    (hl : s.text.length + 4 * (cs.length + 2) < e.limit) :
    ∃ s', run e s ((k :: ks).map (MoveKey.press true) ++ (c :: d :: cs).map .char) = some s' ∧
      s'.text = s.text.take s.cursor.1 ++ (d :: cs).flatMap utf8Encode ++ s.text.drop s.cursor.1 := by
  obtain ⟨s1, a1, a2, a3⟩ := presses_sound hg k ks h.sound h.focused (by rw [h.shown]; exact hne)
  have hw := C158_same_caret (e := e) (k :: ks) h.focused
  have hs : ({ s with sel := none } : TextBox φ) = s := by rw [← h.sel]
  rw [hs, a1, h0] at hw
  cases hw
  have hc : s1.cursor = s.cursor := hc0
  have a5 : s1.sel = some s1.cursor := by rw [hc, a3, h.sel]; rfl
  have ht : s1.text = s.text := by rw [a3]
  obtain ⟨s2, b1, -, b3⟩ := types_empty hg a2 (by rw [a3]; exact h.focused) (by rw [a3]; exact h.editable) a5 c (d :: cs)
    (by rw [ht, List.length_cons]; exact hl)
  refine ⟨s2, by rw [run_append, a1]; exact b1, ?_⟩
  rw [b3, hc, ht]
  simp

/-! The hypotheses are met: "abcd" typed, Left twice with shift; then copied, or replaced by `x` and `y`; and Left and Right with shift. -/

example : (run marksBox {} (typeAbcd ++ [MoveKey.left false, .left false].map (MoveKey.press true) ++ [.copy])).map
      (fun s => (s.sel.map (·.1), s.cursor.1, s.clip)) = some (some 4, 2, some b!"cd") := by decide +kernel

example : (run marksBox {} (typeAbcd ++ [MoveKey.left false, .left false].map (MoveKey.press false))).map (fun s => (s.sel.map (·.1), s.cursor.1)) =
    some (none, 2) := by decide +kernel

example : (run marksBox {} (typeAbcd ++ [MoveKey.left false, .left false].map (MoveKey.press true) ++ [.char 120, .char 121])).map (·.text) =
    some b!"abxy" := by decide +kernel

example : (run marksBox {} (typeAbcd ++ [MoveKey.left false, .left false].map (MoveKey.press true) ++ [.delete true])).map
    (fun s => (s.text, s.cursor.1)) = some (b!"ab", 2) := by decide +kernel

example : (run marksBox {} (typeAbcd ++ [MoveKey.left false, .left false].map (MoveKey.press false) ++
      [MoveKey.left false, .right false].map (MoveKey.press true) ++ [.char 120, .char 121])).map (·.text) =
    some b!"abycd" := by decide +kernel

end
end RichText
