import Verif.Spec.BoxThread
import Verif.Proof.BoxThread
/-!
Which texts the handlers of the text box lay out.
-/
namespace RichText
namespace TextBox
variable {φ σ : Type}

open Classical in
/-- `recalc_text` for texts that are short enough, and markup in `R`. -/
noncomputable def guarded (e : BoxEnv φ) (R : Bytes → Prop) (s : TextBox φ) : Option (TextBox φ) :=
  if s.text.length < e.limit ∧ (s.showsRich = true → R s.text) then recalc e s else none

variable {e : BoxEnv φ} {R : Bytes → Prop}

theorem guarded_pos {s : TextBox φ} (h1 : s.text.length < e.limit) (h2 : s.showsRich = true → R s.text) :
    guarded e R s = recalc e s := if_pos ⟨h1, h2⟩

theorem guarded_plain {s : TextBox φ} (h1 : s.text.length < e.limit) (h2 : s.showsRich = false) :
    (pureRec (guarded e R) s : Call σ _) = .lift (recalc e s) := by
  unfold pureRec
  rw [guarded_pos h1 (fun h => by rw [h2] at h; cases h)]

theorem removeTextT_guarded {s : TextBox φ} {a b : Nat} (hp : s.showsRich = false) (hs : s.text.length < e.limit) (hab : a ≤ b) :
    (removeTextT (pureRec (guarded e R)) s a b : Call σ _) = .lift (removeText e s a b) := by
  unfold removeTextT removeText
  split
  · rename_i hb
    refine guarded_plain ?_ hp
    show (s.text.take a ++ s.text.drop b).length < _
    rw [List.length_append, List.length_take, List.length_drop]; omega
  · rfl

theorem removeHighlightedT_guarded {s : TextBox φ} (hp : s.showsRich = false) (hs : s.text.length < e.limit) :
    (removeHighlightedT (pureRec (guarded e R)) s : Call σ _) = .lift (removeHighlighted e s) := by
  unfold removeHighlightedT removeHighlighted
  cases s.sel with
  | none => rfl
  | some start =>
    simp only
    by_cases h1 : start = s.cursor
    · rw [if_pos h1, if_pos h1]
    · rw [if_neg h1, if_neg h1]
      by_cases h2 : start.1 > s.cursor.1
      · rw [if_pos h2, if_pos h2]
        exact removeTextT_guarded (s := { s with sel := none }) hp hs (by omega)
      · rw [if_neg h2, if_neg h2]
        exact removeTextT_guarded (s := { s with cursor := start, sel := none }) hp hs (by omega)

theorem insertTextT_guarded {s : TextBox φ} {ins : Bytes} {start : Nat} (hp : s.showsRich = false)
    (hs : s.text.length + ins.length < e.limit) :
    (insertTextT (pureRec (guarded e R)) s ins start : Call σ _) = .lift (insertText e s ins start) := by
  unfold insertTextT insertText
  simp only
  split
  · refine guarded_plain ?_ hp
    simp only [List.length_append, List.length_take, List.length_drop]; omega
  · refine guarded_plain ?_ hp
    simp only [List.length_append]; omega

theorem Call.lift_some_bind {α β : Type} (a : α) (f : α → Call σ β) : (Call.lift (some a) : Call σ α).bind f = f a := rfl

theorem Call.lift_none_bind {α β : Type} (f : α → Call σ β) : (Call.lift none : Call σ α).bind f = .lift none := rfl

theorem insertTypedT_guarded (hg : e.Good) {s : TextBox φ} (h : Sound e s) (hp : s.showsRich = false) {c : Nat}
    (hs : s.text.length + (utf8Encode c).length < e.limit) :
    (insertTypedT (pureRec (guarded e R)) s c : Call σ _) = .lift (insertTyped e s c) := by
  unfold insertTypedT insertTyped
  rw [removeHighlightedT_guarded hp h.small]
  obtain ⟨s1, h1, _, h3, _, h5⟩ := removeHighlighted_sound hg h hp
  rw [h1, Call.lift_some_bind]
  exact insertTextT_guarded h5 (by omega)

theorem backspaceT_guarded (hg : e.Good) {s : TextBox φ} (hp : s.showsRich = false) (hs : s.text.length < e.limit) (ctrl : Bool) :
    (backspaceT e (pureRec (guarded e R)) s ctrl : Call σ _) = .lift (TextBox.backspace e s ctrl) := by
  unfold backspaceT TextBox.backspace
  split
  · exact removeHighlightedT_guarded hp hs
  · split
    · cases hm : (if ctrl = true then prevWord e s false else prevCharacter e s false) with
      | none => rfl
      | some s1 =>
        rw [Call.lift_some_bind]
        obtain ⟨B, hB⟩ := hg.breaks s.ctrl
        have key : (∃ c, setCursor e s c false = some s1 ∧ c.1 ≤ s.cursor.1) := by
          cases ctrl with
          | true =>
            simp only [if_true] at hm
            unfold TextBox.prevWord at hm
            obtain ⟨q, hq, hw⟩ := C51_prev_word hB (hg.spaces s.ctrl) s.cursor
            rw [hq] at hm
            refine ⟨q, hm, ?_⟩
            rcases hw with ⟨hs, -, -⟩ | ⟨-, ⟨rfl, -⟩ | ⟨rfl, -⟩⟩
            · exact Nat.le_of_lt hs.2.1
            · exact Nat.zero_le _
            · exact Nat.le_refl _
          | false =>
            simp only [Bool.false_eq_true, if_false] at hm
            refine ⟨_, hm, ?_⟩
            rcases C50_prev hB s.cursor with ⟨q, -, hlt, -, he⟩ | ⟨-, he⟩
            · rw [he]; exact Nat.le_of_lt hlt
            · rw [he]
        obtain ⟨c, hc, hle⟩ := key
        have h4 := (setCursor_fields hc).1
        refine removeTextT_guarded ?_ ?_ ?_
        · rw [h4]; exact hp
        · rw [h4]; exact hs
        · rw [h4]; exact hle
    · rfl

theorem deleteT_guarded (hg : e.Good) {s : TextBox φ} (h : Sound e s) (hp : s.showsRich = false) (ctrl : Bool) :
    (deleteT e (pureRec (guarded e R)) s ctrl : Call σ _) = .lift (TextBox.delete e s ctrl) := by
  unfold deleteT TextBox.delete
  split
  · exact removeHighlightedT_guarded hp h.small
  · split
    · cases hm : (if ctrl = true then nextWord e s false else nextCharacter e s false) with
      | none => rfl
      | some s1 =>
        rw [Call.lift_some_bind]
        obtain ⟨B, hB⟩ := hg.breaks s.ctrl
        have key : (∃ c, setCursor e s c false = some s1 ∧ s.cursor.1 ≤ c.1) := by
          cases ctrl with
          | true =>
            simp only [if_true] at hm
            unfold TextBox.nextWord at hm
            obtain ⟨q, hq, hw⟩ := C51_next_word hB (cursor := s.cursor) (by rw [hg.size, h.ctrl]; exact h.cursor)
            rw [hq] at hm
            refine ⟨q, hm, ?_⟩
            rcases hw with ⟨hs, -, -⟩ | ⟨-, ⟨rfl, h0⟩ | ⟨rfl, -⟩⟩
            · exact Nat.le_of_lt hs.2.1
            · exact Nat.le_of_lt h0
            · exact Nat.le_refl _
          | false =>
            simp only [Bool.false_eq_true, if_false] at hm
            refine ⟨_, hm, ?_⟩
            rcases C50_next hB s.cursor with ⟨q, hq, he⟩ | ⟨-, he⟩
            · rw [he]; exact Nat.le_of_lt hq.2.1
            · rw [he]
        obtain ⟨c, hc, hle⟩ := key
        have h4 := (setCursor_fields hc).1
        refine removeTextT_guarded (s := { s1 with cursor := s.cursor }) ?_ ?_ ?_
        · rw [h4]; exact hp
        · rw [h4]; exact h.small
        · rw [h4]; exact hle
    · rfl

theorem blurT_guarded {s : TextBox φ} (hs : s.text.length < e.limit) (hR : s.rich = true → R s.text) :
    (blurT (pureRec (guarded e R)) s : Call σ _) = .lift (TextBox.blur e s) := by
  unfold blurT TextBox.blur
  split
  · unfold pureRec
    rw [guarded_pos (s := { s with focused := false, sel := none, drag := false }) hs hR]
  · rfl

theorem focusT_guarded {s : TextBox φ} (hs : s.text.length < e.limit) (hR : s.rich = true → R s.text) :
    (focusT (pureRec (guarded e R)) s : Call σ _) = .lift (TextBox.focus e s) := by
  unfold focusT TextBox.focus
  split
  · rfl
  · unfold pureRec
    rw [guarded_pos (s := { s with focused := true }) hs (fun h => hR (by
      simp only [showsRich, if_true, Bool.and_eq_true] at h; exact h.1))]

theorem toMouse_fields {s s' : TextBox φ} {x y : Rat} {b : Bool} (h : toMouse e s x y b = some s') :
    s'.text = s.text ∧ s'.rich = s.rich ∧ s'.focused = s.focused := by
  unfold toMouse at h
  split at h
  · cases h
  · rw [(setCursor_fields h).1]; exact ⟨rfl, rfl, rfl⟩

theorem pressT_guarded {s : TextBox φ} (hs : s.text.length < e.limit) (hR : s.rich = true → R s.text) (x y : Rat) (shift : Bool)
    (clicks : Nat) : (pressT e (pureRec (guarded e R)) s x y shift clicks : Call σ _) = .lift (TextBox.press e s x y shift clicks) := by
  unfold pressT TextBox.press
  split
  · cases toMouse e s x y shift with
    | none => rfl
    | some s1 =>
      simp only [Option.bind_some]
      cases clickSelect e s1 clicks <;> rfl
  · rename_i hf
    have e0 : (pureRec (guarded e R) s : Call σ _) = .lift (recalc e s) := by
      unfold pureRec
      rw [guarded_pos hs (fun h => hR (by rw [showsRich, if_neg hf] at h; exact h))]
    rw [e0]
    cases hr : recalc e s with
    | none => rfl
    | some s1 =>
      have f1 := recalc_fields hr
      rw [Call.lift_some_bind]
      simp only
      cases hm : toMouse e s1 x y shift with
      | none => rfl
      | some s2 =>
        obtain ⟨m1, m2, m3⟩ := toMouse_fields hm
        rw [Call.lift_some_bind]
        have t2 : s2.text = s.text := by rw [m1, f1]
        have r2 : s2.rich = s.rich := by rw [m2, f1]
        exact focusT_guarded (s := { s2 with drag := true }) (by show s2.text.length < _; rw [t2]; exact hs)
          (fun h => by show R s2.text; rw [t2]; exact hR (r2 ▸ h))

/-- The handlers lay out texts that are short enough only; and markup only as it was before the input. -/
theorem handleT_guarded (hg : e.Good) {s : TextBox φ} (h : Valid e s) {i : Input} (hi : Allowed e s i)
    (hR : i.shows = true → s.rich = true → R s.text) :
    (handleT e (pureRec (guarded e R)) s i : Call σ _) = .lift (handle e s i) := by
  have hsmall : s.text.length < e.limit := by have := hi.2.2.2; omega
  have hview : s.focused = true → (s.editable = true ∨ s.rich = false) → s.showsRich = false := by
    intro hf he
    unfold showsRich
    rw [if_pos hf]
    rcases he with he | he <;> rw [he] <;> simp
  have hsound : s.focused = true → Sound e s := by
    intro hf
    rcases h with h | h
    · exact h
    · rw [h.mode.2.2] at hf; cases hf
  obtain ⟨hmv, hedit, hpaste, hgrow⟩ := hi
  have henc : ∀ c, (utf8Encode c).length ≤ 4 := by
    intro c
    unfold utf8Encode
    split
    · simp
    · split
      · simp
      · split <;> simp
  cases i with
  | press x y shift clicks => exact pressT_guarded hsmall (hR rfl) x y shift clicks
  | release => rfl
  | move x y => simp only [handleT, handle]; split <;> rfl
  | char c =>
    simp only [handleT, handle]
    split
    · rename_i hc
      rw [Bool.and_eq_true] at hc
      have := henc c
      simp only [growth] at hgrow
      exact insertTypedT_guarded hg (hsound hc.1) (hview hc.1 (.inl hc.2)) (by omega)
    · rfl
  | focus => exact focusT_guarded hsmall (hR rfl)
  | blur => exact blurT_guarded hsmall (hR rfl)
  | backspace ctrl =>
    simp only [handleT, handle, keyT, key]
    split
    · rename_i hf
      exact backspaceT_guarded hg (hview hf (hedit rfl)) hsmall ctrl
    · rfl
  | delete ctrl =>
    simp only [handleT, handle, keyT, key]
    split
    · rename_i hf
      exact deleteT_guarded hg (hsound hf) (hview hf (hedit rfl)) ctrl
    · rfl
  | enter =>
    simp only [handleT, handle, keyT, key]
    split
    · rename_i hf
      unfold enterT TextBox.enter
      split
      · have hp := hview hf (hedit rfl)
        obtain ⟨s1, h1, h2, h3, _, h5⟩ := removeHighlighted_sound hg (hsound hf) hp
        rw [removeHighlightedT_guarded hp hsmall, h1, Call.lift_some_bind]
        have : (utf8Encode 10).length = 1 := rfl
        simp only [growth] at hgrow
        exact insertTypedT_guarded hg h2 h5 (by omega)
      · exact blurT_guarded hsmall (hR rfl)
    · rfl
  | tab =>
    simp only [handleT, handle, keyT, key]
    split
    · rename_i hf
      have : (utf8Encode 9).length = 1 := rfl
      simp only [growth] at hgrow
      exact insertTypedT_guarded hg (hsound hf) (hview hf (hedit rfl)) (by omega)
    · rfl
  | cut =>
    simp only [handleT, handle, keyT, key]
    split
    · rename_i hf
      unfold cutT TextBox.cut
      split
      · rfl
      · rename_i hed
        obtain ⟨s1, h1, h2, h3⟩ := copy_sound hg (hsound hf)
        rw [h1, Call.lift_some_bind]
        exact removeHighlightedT_guarded (h3.trans (hview hf (.inl (by simpa using hed)))) h2.small
    · rfl
  | paste =>
    simp only [handleT, handle, keyT, key]
    split
    · rename_i hf
      unfold pasteT TextBox.paste
      split
      · rfl
      · rename_i hed
        have hp := hview hf (.inl (by simpa using hed))
        obtain ⟨s1, h1, h2, h3, h4, h5⟩ := removeHighlighted_sound hg (hsound hf) hp
        rw [removeHighlightedT_guarded hp hsmall, h1, Call.lift_some_bind]
        cases hcl : s1.clip with
        | none => simp only [hcl]; rfl
        | some t =>
          simp only [hcl]
          rw [Call.lift_some_bind]
          rw [h4] at hcl
          simp only [growth, hcl, Option.getD_some] at hgrow
          exact insertTextT_guarded h5 (by omega)
    · rfl
  | _ => simp only [handleT, handle, keyT]; split <;> rfl

end TextBox
end RichText
