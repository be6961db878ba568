import Verif.Props.SelectAllType
/-!
C156: where the bytes of the text of a box come from, and boxes with a single line.
-/
namespace RichText
variable {φ : Type}
open TextBox
namespace TextBox

/-- No byte of the text, and none of what was copied, is one of `P`. -/
def Free (P : UInt8 → Prop) (s : TextBox φ) : Prop := (∀ b ∈ s.text, ¬ P b) ∧ ∀ t, s.clip = some t → ∀ b ∈ t, ¬ P b

/-- Text, clipboard and the number of lines are as they were. -/
def Stays (s s' : TextBox φ) : Prop := s'.text = s.text ∧ s'.clip = s.clip ∧ s'.multiLine = s.multiLine

theorem Stays.free {P : UInt8 → Prop} {s s' : TextBox φ} (h : Stays s s') (hs : Free P s) : Free P s' := by
  obtain ⟨h1, h2, -⟩ := h
  unfold Free
  rw [h1, h2]
  exact hs

theorem Stays.trans {s s' s'' : TextBox φ} (h : Stays s s') (h' : Stays s' s'') : Stays s s'' :=
  ⟨h'.1.trans h.1, h'.2.1.trans h.2.1, h'.2.2.trans h.2.2⟩

theorem Stays.refl (s : TextBox φ) : Stays s s := ⟨rfl, rfl, rfl⟩

section
variable {e : BoxEnv φ} {s s' : TextBox φ} {P : UInt8 → Prop}

theorem setCursor_stays {c : Cursor} {b : Bool} (h : setCursor e s c b = some s') : Stays s s' := by
  rw [(setCursor_fields h).1]
  exact ⟨rfl, rfl, rfl⟩

theorem recalc_stays (h : recalc e s = some s') : Stays s s' := by
  rw [recalc_fields h]
  exact ⟨rfl, rfl, rfl⟩

theorem match_stays {o : Option Cursor} {b : Bool} (h : (match o with | none => none | some c => setCursor e s c b) = some s') : Stays s s' := by
  cases o with
  | none => cases h
  | some c => exact setCursor_stays h

theorem nextLine_stays {b : Bool} (h : nextLine e s b = some s') : Stays s s' := by
  unfold nextLine at h
  split at h
  · exact match_stays h
  · exact setCursor_stays h

theorem prevLine_stays {b : Bool} (h : prevLine e s b = some s') : Stays s s' := by
  unfold prevLine at h
  split at h
  · exact match_stays h
  · exact setCursor_stays h

theorem between_stays {f g : TextBox φ → Bool → Option (TextBox φ)} (hf : ∀ {s s'} {b}, f s b = some s' → Stays s s')
    (hg : ∀ {s s'} {b}, g s b = some s' → Stays s s') (h : selectBetween f g s = some s') : Stays s s' := by
  unfold selectBetween at h
  split at h
  · cases h
  · rename_i s1 h1
    exact (hf h1).trans (hg h)

theorem clickSelect_stays {n : Nat} (h : clickSelect e s n = some s') : Stays s s' := by
  unfold clickSelect at h
  split at h
  · exact between_stays (fun h => match_stays h) (fun h => match_stays h) h
  · exact between_stays (fun h => match_stays h) (fun h => match_stays h) h
  · exact between_stays (fun h => setCursor_stays h) (fun h => setCursor_stays h) h
  · cases h; exact .refl _

theorem focus_stays (h : TextBox.focus e s = some s') : Stays s s' := by
  unfold TextBox.focus at h
  split at h
  · cases h; exact .refl _
  · have h' := recalc_stays h
    exact h'

theorem blur_stays (h : TextBox.blur e s = some s') : Stays s s' := by
  unfold TextBox.blur at h
  split at h
  · have h' := recalc_stays h
    exact h'
  · cases h; exact .refl _

theorem press_stays {x y : Rat} {shift : Bool} {n : Nat} (h : TextBox.press e s x y shift n = some s') : Stays s s' := by
  unfold TextBox.press at h
  split at h
  · split at h
    · cases h
    · rename_i s1 h1
      split at h
      · cases h
      · rename_i s2 h2
        cases h
        have h' := (match_stays h1).trans (clickSelect_stays h2)
        exact h'
  · split at h
    · cases h
    · rename_i s1 h1
      split at h
      · cases h
      · rename_i s2 h2
        exact (recalc_stays h1).trans ((match_stays h2).trans (focus_stays (s := { s2 with drag := true }) h))

theorem removeText_free {a b : Nat} (hs : Free P s) (h : removeText e s a b = some s') : Free P s' ∧ s'.multiLine = s.multiLine := by
  rw [(removeText_fields h).2]
  refine ⟨⟨fun x hx => ?_, hs.2⟩, rfl⟩
  rcases List.mem_append.1 hx with hx | hx
  · exact hs.1 x (List.mem_of_mem_take hx)
  · exact hs.1 x (List.mem_of_mem_drop hx)

theorem removeHighlighted_free (hs : Free P s) (h : removeHighlighted e s = some s') : Free P s' ∧ s'.multiLine = s.multiLine := by
  unfold removeHighlighted at h
  split at h
  · cases h; exact ⟨hs, rfl⟩
  · split at h
    · cases h; exact ⟨hs, rfl⟩
    · split at h
      · exact removeText_free (s := { s with sel := none }) hs h
      · exact removeText_free (s := { s with cursor := _, sel := none }) hs h

theorem insertText_free {ins : Bytes} {a : Nat} (hs : Free P s) (hi : ∀ b ∈ ins, ¬ P b) (h : insertText e s ins a = some s') :
    Free P s' ∧ s'.multiLine = s.multiLine := by
  rw [insertText_fields h]
  refine ⟨⟨fun x hx => ?_, hs.2⟩, rfl⟩
  simp only [List.mem_append] at hx
  rcases hx with (hx | hx) | hx
  · exact hs.1 x (List.mem_of_mem_take hx)
  · exact hi x hx
  · exact hs.1 x (List.mem_of_mem_drop hx)

theorem insertTyped_free {c : Nat} (hs : Free P s) (hi : ∀ b ∈ utf8Encode c, ¬ P b) (h : insertTyped e s c = some s') :
    Free P s' ∧ s'.multiLine = s.multiLine := by
  unfold insertTyped at h
  split at h
  · cases h
  · rename_i s1 h1
    obtain ⟨a, b⟩ := removeHighlighted_free hs h1
    obtain ⟨c, d⟩ := insertText_free a hi h
    exact ⟨c, d.trans b⟩

theorem copy_free (hs : Free P s) (h : TextBox.copy s = some s') : Free P s' ∧ s'.multiLine = s.multiLine := by
  unfold TextBox.copy at h
  split at h
  · cases h; exact ⟨hs, rfl⟩
  · simp only at h
    split at h
    · cases h; exact ⟨hs, rfl⟩
    · split at h
      · cases h
        refine ⟨⟨hs.1, ?_⟩, rfl⟩
        intro t ht b hb
        cases ht
        exact hs.1 b (List.mem_of_mem_drop (List.mem_of_mem_take ((List.takeWhile_sublist _).mem hb)))
      · cases h

/-- What an input can put into the text. -/
theorem handle_free {i : Input} (hs : Free P s) (htab : ¬ P 9) (hnl : s.multiLine = true → ¬ P 10) (hc : ∀ c, i = .char c → ∀ b ∈ utf8Encode c, ¬ P b)
    (h : handle e s i = some s') : Free P s' ∧ s'.multiLine = s.multiLine := by
  have stays : Stays s s' → Free P s' ∧ s'.multiLine = s.multiLine := fun h => ⟨h.free hs, h.2.2⟩
  cases i <;> simp only [handle, key] at h
  case press => exact stays (press_stays h)
  case release => split at h <;> cases h <;> exact ⟨hs, rfl⟩
  case move =>
    split at h
    · exact stays (match_stays h)
    · cases h; exact ⟨hs, rfl⟩
  case char c =>
    split at h
    · exact insertTyped_free hs (hc c rfl) h
    · cases h; exact ⟨hs, rfl⟩
  case focus => exact stays (focus_stays h)
  case blur => exact stays (blur_stays h)
  all_goals split at h
  all_goals try (cases h; exact ⟨hs, rfl⟩)
  case up => exact stays (prevLine_stays h)
  case down => exact stays (nextLine_stays h)
  case left =>
    split at h
    · exact stays (match_stays h)
    · exact stays (setCursor_stays h)
  case right =>
    split at h
    · exact stays (match_stays h)
    · exact stays (setCursor_stays h)
  case home =>
    split at h
    · exact stays (setCursor_stays h)
    · exact stays (match_stays h)
  case «end» =>
    split at h
    · exact stays (setCursor_stays h)
    · exact stays (match_stays h)
  case backspace =>
    unfold TextBox.backspace at h
    split at h
    · exact removeHighlighted_free hs h
    · split at h
      · split at h
        · cases h
        · rename_i s1 h1
          have hst : Stays s s1 := by
            split at h1
            · exact match_stays h1
            · exact setCursor_stays h1
          obtain ⟨a, b⟩ := removeText_free (hst.free hs) h
          exact ⟨a, b.trans hst.2.2⟩
      · cases h; exact ⟨hs, rfl⟩
  case delete =>
    unfold TextBox.delete at h
    split at h
    · exact removeHighlighted_free hs h
    · split at h
      · split at h
        · cases h
        · rename_i s1 h1
          have hst : Stays s s1 := by
            split at h1
            · exact match_stays h1
            · exact setCursor_stays h1
          obtain ⟨a, b⟩ := removeText_free (s := { s1 with cursor := s.cursor }) (hst.free hs) h
          exact ⟨a, b.trans hst.2.2⟩
      · cases h; exact ⟨hs, rfl⟩
  case enter =>
    unfold TextBox.enter at h
    split at h
    · rename_i hm
      split at h
      · cases h
      · rename_i s1 h1
        obtain ⟨a, b⟩ := removeHighlighted_free hs h1
        obtain ⟨c, d⟩ := insertTyped_free a (fun x hx => by
          have : x = 10 := by simpa [utf8Encode] using hx
          rw [this]; exact hnl hm) h
        exact ⟨c, d.trans b⟩
    · exact stays (blur_stays h)
  case tab =>
    exact insertTyped_free hs (fun x hx => by
      have : x = 9 := by simpa [utf8Encode] using hx
      rw [this]; exact htab) h
  case cut =>
    unfold TextBox.cut at h
    split at h
    · cases h; exact ⟨hs, rfl⟩
    · split at h
      · cases h
      · rename_i s1 h1
        obtain ⟨a, b⟩ := copy_free hs h1
        obtain ⟨c, d⟩ := removeHighlighted_free a h
        exact ⟨c, d.trans b⟩
  case copy => exact copy_free hs h
  case paste =>
    unfold TextBox.paste at h
    split at h
    · cases h; exact ⟨hs, rfl⟩
    · split at h
      · cases h
      · rename_i s1 h1
        obtain ⟨a, b⟩ := removeHighlighted_free hs h1
        split at h
        · cases h
        · rename_i t ht
          obtain ⟨c, d⟩ := insertText_free a (a.2 t ht) h
          exact ⟨c, d.trans b⟩
  case selectAll => exact stays (between_stays (fun h => setCursor_stays h) (fun h => setCursor_stays h) h)

end
end TextBox

/-- An input that types a character types none with a byte of `P`. -/
def TextBox.Input.TypesNo (P : UInt8 → Prop) (i : Input) : Prop := ∀ c, i = .char c → ∀ b ∈ utf8Encode c, ¬ P b

/-- C156: whatever the user does, each byte of the text, and of what is copied, was in the text or in the clipboard before, belongs to a character
typed, or is that of Tab or, in a box with several lines, of Enter. -/
theorem C156_bytes {e : BoxEnv φ} {P : UInt8 → Prop} : ∀ (is : List Input) {s s' : TextBox φ}, Free P s → ¬ P 9 → (s.multiLine = true → ¬ P 10) →
    (∀ i ∈ is, i.TypesNo P) → run e s is = some s' → Free P s' ∧ s'.multiLine = s.multiLine
  | [], s, s', hs, _, _, _, h => by
    simp only [run] at h
    cases h
    exact ⟨hs, rfl⟩
  | i :: is, s, s', hs, htab, hnl, hc, h => by
    simp only [run] at h
    cases h1 : handle e s i with
    | none => rw [h1] at h; cases h
    | some s1 =>
      rw [h1] at h
      obtain ⟨a, b⟩ := handle_free hs htab hnl (hc i (by simp)) h1
      obtain ⟨c, d⟩ := C156_bytes is a htab (by rw [b]; exact hnl) (fun j hj => hc j (by simp [hj])) h
      exact ⟨c, d.trans b⟩

/-- Line feed and carriage return. -/
def NewLineByte (b : UInt8) : Prop := b = 10 ∨ b = 13

theorem typed_no_newline {c : Nat} (h1 : c ≠ 10) (h2 : c ≠ 13) (h3 : c ≤ 0x10FFFF) : ∀ b ∈ utf8Encode c, ¬ NewLineByte b := by
  have k1 : ∀ x < 128, x ≠ 10 → x ≠ 13 → ¬ (UInt8.ofNat x = 10 ∨ UInt8.ofNat x = 13) := by decide
  have k2 : ∀ x < 32, ¬ (UInt8.ofNat (x ||| 0xC0) = 10 ∨ UInt8.ofNat (x ||| 0xC0) = 13) := by decide
  have k3 : ∀ x < 16, ¬ (UInt8.ofNat (x ||| 0xE0) = 10 ∨ UInt8.ofNat (x ||| 0xE0) = 13) := by decide
  have k4 : ∀ x < 5, ¬ (UInt8.ofNat (x ||| 0xF0) = 10 ∨ UInt8.ofNat (x ||| 0xF0) = 13) := by decide
  have k5 : ∀ x < 64, ¬ (UInt8.ofNat (x ||| 0x80) = 10 ∨ UInt8.ofNat (x ||| 0x80) = 13) := by decide
  unfold utf8Encode NewLineByte
  split
  · intro b hb
    rw [List.mem_singleton.1 hb]
    exact k1 c (by omega) h1 h2
  · split
    · intro b hb
      simp only [List.mem_cons, List.not_mem_nil, or_false] at hb
      rcases hb with rfl | rfl
      · exact k2 _ (by omega)
      · exact k5 _ (by omega)
    · split
      · intro b hb
        simp only [List.mem_cons, List.not_mem_nil, or_false] at hb
        rcases hb with rfl | rfl | rfl
        · exact k3 _ (by omega)
        · exact k5 _ (by omega)
        · exact k5 _ (by omega)
      · intro b hb
        simp only [List.mem_cons, List.not_mem_nil, or_false] at hb
        rcases hb with rfl | rfl | rfl | rfl
        · exact k4 _ (by omega)
        · exact k5 _ (by omega)
        · exact k5 _ (by omega)
        · exact k5 _ (by omega)

/-- C156: a box with a single line whose text has no line break, and no line break in the clipboard: there is none in the text after any sequence of
inputs that types other characters than line breaks.  Missing from the full statement: a clipboard filled elsewhere, for which it is false
(`C156_paste_violated`). -/
theorem C156_single_partial {e : BoxEnv φ} (is : List Input) {s s' : TextBox φ} (hm : s.multiLine = false) (ht : ∀ b ∈ s.text, b ≠ 10 ∧ b ≠ 13)
    (hcl : ∀ t, s.clip = some t → ∀ b ∈ t, b ≠ 10 ∧ b ≠ 13) (hc : ∀ c, .char c ∈ is → c ≠ 10 ∧ c ≠ 13 ∧ c ≤ 0x10FFFF) (h : run e s is = some s') :
    ∀ b ∈ s'.text, b ≠ 10 ∧ b ≠ 13 := by
  have hfree : Free NewLineByte s := ⟨fun b hb => not_or.2 (ht b hb), fun t h b hb => not_or.2 (hcl t h b hb)⟩
  obtain ⟨h1, -⟩ := C156_bytes is hfree (by unfold NewLineByte; decide) (by rw [hm]; nofun)
    (fun i hi c hic => by
      obtain ⟨c1, c2, c3⟩ := hc c (hic ▸ hi)
      exact typed_no_newline c1 c2 c3) h
  exact fun b hb => not_or.1 (h1.1 b hb)

/-- C156 is false for the clipboard: in every state of a box with a single line that is being edited, a line break in the clipboard gets into the text
when it is pasted. -/
theorem C156_paste_violated {e : BoxEnv φ} {s s' : TextBox φ} (hf : s.focused = true) (he : s.editable = true) (_hm : s.multiLine = false)
    {t : Bytes} (ht : s.clip = some t) (hb : (10 : UInt8) ∈ t) (h : handle e s .paste = some s') : (10 : UInt8) ∈ s'.text := by
  simp only [handle, hf, if_true, key, TextBox.paste, he, Bool.not_true, Bool.false_eq_true, if_false] at h
  split at h
  · cases h
  · rename_i s1 h1
    have hclip : s1.clip = some t := by
      unfold removeHighlighted at h1
      split at h1
      · cases h1; exact ht
      · split at h1
        · cases h1; exact ht
        · split at h1
          · rw [(removeText_fields h1).2]; exact ht
          · rw [(removeText_fields h1).2]; exact ht
    rw [hclip] at h
    simp only at h
    rw [insertText_fields h]
    simp [hb]

/-! The hypotheses are met: `ab` typed into a box with a single line, selected, copied and pasted twice, with Enter at the end, which takes the focus
away; and `a`, line feed, `b` pasted into such a box. -/

example : (run marksBox { multiLine := false } [.focus, .char 97, .char 98, .selectAll, .copy, .paste, .paste, .enter]).map
      (fun s => (s.text, s.focused, s.multiLine)) = some (b!"abab", false, false) ∧
    (run marksBox { multiLine := false, clip := some [97, 10, 98] } [.focus, .paste]).map (·.text) = some [97, 10, 98] ∧
    (run marksBox {} [.focus, .char 97, .enter]).map (·.text) = some [97, 10] := by decide +kernel

end RichText
