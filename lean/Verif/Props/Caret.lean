import Verif.Props.TextBoxNav
import Mathlib.Algebra.Order.Floor.Ring
import Mathlib.Data.Rat.Floor
import Mathlib.Tactic.Linarith
/-!
C114: the caret blinks twice a second, for five seconds after it was moved, then stays; which inputs let it start again.
-/
namespace RichText
variable {φ : Type _}
open TextBox

/-- What happens to a box: time passes, or the user does something. -/
inductive TimedInput where
  | tick (dt : Rat)
  | input (i : Input)

/-- One of these. -/
def TextBox.timed (e : BoxEnv φ) (s : TextBox φ) : TimedInput → Option (TextBox φ)
  | .tick dt => some (s.update dt)
  | .input i => handle e s i

/-- The inputs that show the caret from the start: movements, clicks and dragging, and backspace and delete if they remove the
text next to the caret. -/
def TextBox.restarts (s : TextBox φ) : Input → Bool
  | .up _ | .down _ | .left _ _ | .right _ _ | .home _ _ | .end _ _ | .selectAll => s.focused
  | .press .. => true
  | .move _ _ => s.focused && s.drag
  | .backspace _ => s.focused && s.sel.isNone && decide (0 < s.cursor.1)
  | .delete _ => s.focused && s.sel.isNone && decide (s.cursor.1 < s.text.length)
  | _ => false

/-- A sequence of these, with the time since the last input that restarts the caret (or `t` longer, if there is none). -/
def TextBox.timedRun (e : BoxEnv φ) : TextBox φ → Rat → List TimedInput → Option (TextBox φ × Rat)
  | s, t, [] => some (s, t)
  | s, t, x :: l =>
    (s.timed e x).bind fun s' =>
      s'.timedRun e (match x with | .tick dt => t + dt | .input i => if s.restarts i then 0 else t) l

namespace TextBox

/-- The caret starts. -/
def Restarted (s : TextBox φ) : Prop := s.timer = 0 ∧ s.flash = 0

/-- The caret goes on. -/
def GoesOn (s s' : TextBox φ) : Prop := s'.timer = s.timer ∧ s'.flash = s.flash

theorem GoesOn.trans {a b c : TextBox φ} (h : GoesOn a b) (h' : GoesOn b c) : GoesOn a c :=
  ⟨h'.1.trans h.1, h'.2.trans h.2⟩

theorem GoesOn.restarted {a b : TextBox φ} (h : GoesOn a b) (h' : Restarted a) : Restarted b := ⟨h.1.trans h'.1, h.2.trans h'.2⟩

variable {e : BoxEnv φ} {s s' : TextBox φ}

theorem recalc_goesOn (h : recalc e s = some s') : GoesOn s s' := by rw [recalc_fields h]; exact ⟨rfl, rfl⟩

theorem setText_goesOn {t : Bytes} (h : setText e s t = some s') : GoesOn s s' := by
  rw [setText_fields h]; exact ⟨rfl, rfl⟩

theorem setCursor_restarted {pos : Cursor} {b : Bool} (h : setCursor e s pos b = some s') : Restarted s' := by
  rw [(setCursor_fields h).1]; exact ⟨rfl, rfl⟩

theorem removeText_goesOn {a b : Nat} (h : removeText e s a b = some s') : GoesOn s s' := by
  unfold removeText at h
  split at h
  · exact setText_goesOn h
  · cases h

theorem removeHighlighted_goesOn (h : removeHighlighted e s = some s') : GoesOn s s' := by
  unfold removeHighlighted at h
  split at h
  · cases h; exact ⟨rfl, rfl⟩
  · split at h
    · cases h; exact ⟨rfl, rfl⟩
    · split at h
      · exact removeText_goesOn (s := { s with sel := none }) h
      · rename_i start _ _ _
        exact GoesOn.trans (b := { s with cursor := start, sel := none }) ⟨rfl, rfl⟩ (removeText_goesOn h)

theorem insertText_goesOn {ins : Bytes} {a : Nat} (h : insertText e s ins a = some s') : GoesOn s s' := by
  unfold insertText at h
  simp only at h
  split at h
  · exact GoesOn.trans (b := { s with cursor := (s.cursor.1 + ins.length, .default) }) ⟨rfl, rfl⟩ (setText_goesOn h)
  · exact GoesOn.trans (b := { s with cursor := (s.cursor.1 + ins.length, .default) }) ⟨rfl, rfl⟩ (setText_goesOn h)

theorem insertTyped_goesOn {c : Nat} (h : insertTyped e s c = some s') : GoesOn s s' := by
  unfold insertTyped at h
  split at h
  · cases h
  · rename_i h1
    exact (removeHighlighted_goesOn h1).trans (insertText_goesOn h)

theorem blur_goesOn (h : TextBox.blur e s = some s') : GoesOn s s' := by
  unfold TextBox.blur at h
  split at h
  · exact recalc_goesOn (s := { s with focused := false, sel := none, drag := false }) h
  · cases h; exact ⟨rfl, rfl⟩

theorem focus_goesOn (h : TextBox.focus e s = some s') : GoesOn s s' := by
  unfold TextBox.focus at h
  split at h
  · cases h; exact ⟨rfl, rfl⟩
  · exact recalc_goesOn (s := { s with focused := true }) h

theorem prevWord_restarted {b : Bool} (h : prevWord e s b = some s') : Restarted s' := by
  unfold prevWord at h
  split at h
  · cases h
  · exact setCursor_restarted h

theorem nextWord_restarted {b : Bool} (h : nextWord e s b = some s') : Restarted s' := by
  unfold nextWord at h
  split at h
  · cases h
  · exact setCursor_restarted h

theorem toMouse_restarted {x y : Rat} {b : Bool} (h : toMouse e s x y b = some s') : Restarted s' := by
  unfold toMouse at h
  split at h
  · cases h
  · exact setCursor_restarted h

theorem selectBetween_restarted {f g : TextBox φ → Bool → Option (TextBox φ)}
    (hg : ∀ s s' b, g s b = some s' → Restarted s') (h : selectBetween f g s = some s') : Restarted s' := by
  unfold selectBetween at h
  split at h
  · cases h
  · exact hg _ _ _ h

theorem textEnd_restarted {b : Bool} (h : textEnd e s b = some s') : Restarted s' := by
  unfold textEnd at h
  exact setCursor_restarted h

theorem lineEnd_restarted {b : Bool} (h : lineEnd e s b = some s') : Restarted s' := by
  unfold lineEnd at h
  split at h
  · cases h
  · exact setCursor_restarted h

theorem clickSelect_restarted {n : Nat} (hr : Restarted s) (h : clickSelect e s n = some s') : Restarted s' := by
  unfold clickSelect at h
  split at h
  · exact selectBetween_restarted (fun _ _ _ => nextWord_restarted) h
  · exact selectBetween_restarted (fun _ _ _ => lineEnd_restarted) h
  · exact selectBetween_restarted (fun _ _ _ => textEnd_restarted) h
  · cases h; exact hr

theorem backspace_caret {ctrl : Bool} (h : TextBox.backspace e s ctrl = some s') :
    if s.sel.isNone && decide (0 < s.cursor.1) then Restarted s' else GoesOn s s' := by
  unfold TextBox.backspace at h
  cases hs : s.sel with
  | some c =>
    simp only [hs, Option.isSome_some, if_true] at h
    simpa using removeHighlighted_goesOn h
  | none =>
    simp only [hs, Option.isSome_none, Bool.false_eq_true, if_false] at h
    by_cases hc : 0 < s.cursor.1
    · simp only [hc, gt_iff_lt, if_true] at h
      simp only [Option.isNone_none, hc, decide_true, Bool.and_self, if_true]
      split at h
      · cases h
      · rename_i s1 h1
        refine (removeText_goesOn h).restarted ?_
        cases ctrl
        · exact setCursor_restarted h1
        · exact prevWord_restarted h1
    · simp only [hc, gt_iff_lt, if_false, Option.some.injEq] at h
      subst h
      simp [hc, GoesOn]

theorem delete_caret {ctrl : Bool} (h : TextBox.delete e s ctrl = some s') :
    if s.sel.isNone && decide (s.cursor.1 < s.text.length) then Restarted s' else GoesOn s s' := by
  unfold TextBox.delete at h
  cases hs : s.sel with
  | some c =>
    simp only [hs, Option.isSome_some, if_true] at h
    simpa using removeHighlighted_goesOn h
  | none =>
    simp only [hs, Option.isSome_none, Bool.false_eq_true, if_false] at h
    by_cases hc : s.cursor.1 < s.text.length
    · simp only [hc, if_true] at h
      simp only [Option.isNone_none, hc, decide_true, Bool.and_self, if_true]
      split at h
      · cases h
      · rename_i s1 h1
        refine GoesOn.restarted (a := s1) (GoesOn.trans (b := { s1 with cursor := s.cursor }) ⟨rfl, rfl⟩ (removeText_goesOn h)) ?_
        cases ctrl
        · exact setCursor_restarted h1
        · exact nextWord_restarted h1
    · simp only [hc, if_false, Option.some.injEq] at h
      subst h
      simp [hc, GoesOn]

theorem press_restarted {x y : Rat} {shift : Bool} {n : Nat} (h : TextBox.press e s x y shift n = some s') : Restarted s' := by
  unfold TextBox.press at h
  split at h
  · split at h
    · cases h
    · rename_i s1 h1
      split at h
      · cases h
      · rename_i s2 h2
        cases h
        exact GoesOn.restarted (a := s2) ⟨rfl, rfl⟩ (clickSelect_restarted (toMouse_restarted h1) h2)
  · split at h
    · cases h
    · split at h
      · cases h
      · rename_i s2 h2
        exact GoesOn.restarted (a := s2) (GoesOn.trans (b := { s2 with drag := true }) ⟨rfl, rfl⟩ (focus_goesOn h))
          (toMouse_restarted h2)

theorem prevLine_restarted {b : Bool} (h : prevLine e s b = some s') : Restarted s' := by
  unfold prevLine at h
  split at h
  · split at h
    · cases h
    · exact setCursor_restarted h
  · exact setCursor_restarted h

theorem nextLine_restarted {b : Bool} (h : nextLine e s b = some s') : Restarted s' := by
  unfold nextLine at h
  split at h
  · split at h
    · cases h
    · exact setCursor_restarted h
  · exact setCursor_restarted h

theorem lineStart_restarted {b : Bool} (h : lineStart e s b = some s') : Restarted s' := by
  unfold lineStart at h
  split at h
  · cases h
  · exact setCursor_restarted h

theorem copy_goesOn (h : TextBox.copy s = some s') : GoesOn s s' := by rw [copy_fields h]; exact ⟨rfl, rfl⟩

theorem cut_goesOn (h : TextBox.cut e s = some s') : GoesOn s s' := by
  unfold TextBox.cut at h
  split at h
  · cases h; exact ⟨rfl, rfl⟩
  · split at h
    · cases h
    · rename_i h1
      exact (copy_goesOn h1).trans (removeHighlighted_goesOn h)

theorem paste_goesOn (h : TextBox.paste e s = some s') : GoesOn s s' := by
  unfold TextBox.paste at h
  split at h
  · cases h; exact ⟨rfl, rfl⟩
  · split at h
    · cases h
    · rename_i h1
      split at h
      · cases h
      · exact (removeHighlighted_goesOn h1).trans (insertText_goesOn h)

theorem enter_goesOn (h : TextBox.enter e s = some s') : GoesOn s s' := by
  unfold TextBox.enter at h
  split at h
  · split at h
    · cases h
    · rename_i h1
      exact (removeHighlighted_goesOn h1).trans (insertTyped_goesOn h)
  · exact blur_goesOn h

theorem handle_caret {i : Input} (h : handle e s i = some s') : if s.restarts i then Restarted s' else GoesOn s s' := by
  have id_goesOn : GoesOn s s := ⟨rfl, rfl⟩
  cases hf : s.focused <;> cases i <;>
    simp only [handle, hf, TextBox.key, restarts, Bool.true_and, Bool.false_and, Bool.false_eq_true, if_true, if_false,
      Option.some.injEq] at h ⊢
  all_goals try (subst h; exact id_goesOn)
  case false.press => exact press_restarted h
  case false.focus => exact focus_goesOn h
  case false.blur => exact blur_goesOn h
  case true.up => exact prevLine_restarted h
  case true.down => exact nextLine_restarted h
  case true.left =>
    split at h
    · exact prevWord_restarted h
    · exact setCursor_restarted h
  case true.right =>
    split at h
    · exact nextWord_restarted h
    · exact setCursor_restarted h
  case true.home =>
    split at h
    · exact setCursor_restarted h
    · exact lineStart_restarted h
  case true.end =>
    split at h
    · exact textEnd_restarted h
    · exact lineEnd_restarted h
  case true.backspace => exact backspace_caret h
  case true.delete => exact delete_caret h
  case true.enter => exact enter_goesOn h
  case true.tab => exact insertTyped_goesOn h
  case true.cut => exact cut_goesOn h
  case true.copy => exact copy_goesOn h
  case true.paste => exact paste_goesOn h
  case true.selectAll => exact selectBetween_restarted (fun _ _ _ => textEnd_restarted) h
  case true.char =>
    split at h
    · exact insertTyped_goesOn h
    · cases h; exact id_goesOn
  case true.press => exact press_restarted h
  case true.move =>
    split at h
    · rename_i hd
      rw [if_pos hd]
      exact toMouse_restarted h
    · rename_i hd
      rw [if_neg hd]
      cases h; exact id_goesOn
  case true.focus => exact focus_goesOn h
  case true.blur => exact blur_goesOn h

/-- The state of the caret after a time. -/
def Blinked (s : TextBox φ) (t : Rat) : Prop :=
  0 ≤ t ∧ (s.flash : Int) = min 10 ⌊2 * t⌋ ∧ s.timer = t - s.flash / 2

theorem blink_spec (n : Nat) (s : TextBox φ) (hn : 10 - s.flash ≤ n) (h10 : s.flash ≤ 10) (t : Rat) (h0 : 0 ≤ s.timer)
    (ht : s.timer = t - s.flash / 2) : Blinked (blink n s) t := by
  induction n generalizing s with
  | zero =>
    have hf : s.flash = 10 := by omega
    have h5 : 5 ≤ t := by rw [hf] at ht; push_cast at ht; linarith
    refine ⟨by linarith, ?_, ht⟩
    show (s.flash : Int) = _
    rw [hf, min_eq_left]
    · rfl
    · exact Int.le_floor.2 (by push_cast; linarith)
  | succ n ih =>
    rw [blink]
    split
    · rename_i hc
      refine ih _ ?_ ?_ ?_ ?_
      · show 10 - (s.flash + 1) ≤ n
        omega
      · show s.flash + 1 ≤ 10
        omega
      · show 0 ≤ s.timer - 1 / 2
        linarith [hc.2]
      · show s.timer - 1 / 2 = t - ((s.flash + 1 : Nat) : Rat) / 2
        push_cast
        linarith
    · rename_i hc
      have hf0 : (0 : Rat) ≤ s.flash := Nat.cast_nonneg _
      refine ⟨by linarith, ?_, ht⟩
      have hle : (s.flash : Int) ≤ ⌊2 * t⌋ := Int.le_floor.2 (by push_cast; linarith)
      by_cases hf : s.flash < 10
      · have hlt : s.timer < 1 / 2 := by
          by_contra hge
          exact hc ⟨hf, by linarith⟩
        have hup : ⌊2 * t⌋ < (s.flash : Int) + 1 := Int.floor_lt.2 (by push_cast; linarith)
        omega
      · omega

theorem update_blinked {s : TextBox φ} {t dt : Rat} (h : Blinked s t) (hdt : 0 ≤ dt) : Blinked (s.update dt) (t + dt) := by
  obtain ⟨h0, hf, ht⟩ := h
  have h10 : s.flash ≤ 10 := by omega
  refine blink_spec 10 { s with timer := s.timer + dt } (by omega) h10 _ ?_ ?_
  · show 0 ≤ s.timer + dt
    have : (s.flash : Int) ≤ ⌊2 * t⌋ := by omega
    have := Int.le_floor.1 this
    push_cast at this
    linarith
  · show s.timer + dt = t + dt - s.flash / 2
    linarith

theorem restarted_blinked {s : TextBox φ} (h : Restarted s) : Blinked s 0 := by
  refine ⟨le_refl _, ?_, ?_⟩
  · rw [h.2]; simp
  · rw [h.1, h.2]; simp

theorem GoesOn.blinked {s s' : TextBox φ} {t : Rat} (h : GoesOn s s') (hb : Blinked s t) : Blinked s' t := by
  obtain ⟨h0, hf, ht⟩ := hb
  exact ⟨h0, by rw [h.2]; exact hf, by rw [h.1, h.2]; exact ht⟩

theorem blink_focused (n : Nat) (s : TextBox φ) : (blink n s).focused = s.focused := by
  induction n generalizing s with
  | zero => rfl
  | succ n ih =>
    rw [blink]
    split
    · rw [ih]
    · rfl

end TextBox

/-- C114, the clock: in every run of inputs and frames, the caret of a box with the focus is shown exactly in the first, third, …
half second since the last input that restarts it, and for good after five seconds, however the time is divided into
frames. -/
theorem C114_blink (e : BoxEnv φ) (s0 s : TextBox φ) (l : List TimedInput) (t : Rat) (hr : s0.timer = 0 ∧ s0.flash = 0)
    (hl : ∀ dt, TimedInput.tick dt ∈ l → 0 ≤ dt) (h : s0.timedRun e 0 l = some (s, t)) :
    0 ≤ t ∧ (s.caretShown = true ↔ s.focused = true ∧ (5 ≤ t ∨ ∃ k : Nat, (k : Rat) ≤ t ∧ t < k + 1 / 2)) := by
  have gen : ∀ (l : List TimedInput) (s0 : TextBox φ) (t0 : Rat), Blinked s0 t0 →
      (∀ dt, TimedInput.tick dt ∈ l → 0 ≤ dt) → s0.timedRun e t0 l = some (s, t) → Blinked s t := by
    intro l
    induction l with
    | nil => intro s0 t0 hb _ h; cases h; exact hb
    | cons x l ih =>
      intro s0 t0 hb hl h
      simp only [TextBox.timedRun, Option.bind_eq_some_iff] at h
      obtain ⟨s1, h1, h2⟩ := h
      refine ih s1 _ ?_ (fun dt hd => hl dt (List.mem_cons_of_mem _ hd)) h2
      cases x with
      | tick dt =>
        cases h1
        exact update_blinked hb (hl dt List.mem_cons_self)
      | input i =>
        have hc := handle_caret h1
        simp only
        split
        · rename_i hi
          rw [if_pos hi] at hc
          exact restarted_blinked hc
        · rename_i hi
          rw [if_neg hi] at hc
          exact hc.blinked hb
  obtain ⟨h0, hf, ht⟩ := gen l s0 0 (restarted_blinked hr) hl h
  refine ⟨h0, ?_⟩
  have hand : s.flash &&& 1 = s.flash % 2 := Nat.and_one_is_mod _
  simp only [caretShown, hand, Bool.and_eq_true, decide_eq_true_eq]
  refine and_congr Iff.rfl ?_
  constructor
  · intro hm
    by_cases h10 : s.flash = 10
    · left
      have : (10 : Int) ≤ ⌊2 * t⌋ := by omega
      have := Int.le_floor.1 this
      push_cast at this
      linarith
    · right
      have hfl : ⌊2 * t⌋ = (s.flash : Int) := by omega
      obtain ⟨k, hk⟩ : ∃ k, s.flash = 2 * k := ⟨s.flash / 2, by omega⟩
      refine ⟨k, ?_, ?_⟩
      · have := Int.floor_le (2 * t)
        rw [hfl, hk] at this
        push_cast at this
        linarith
      · have := Int.lt_floor_add_one (2 * t)
        rw [hfl, hk] at this
        push_cast at this
        linarith
  · rintro (h5 | ⟨k, hk, hk'⟩)
    · have : (10 : Int) ≤ ⌊2 * t⌋ := Int.le_floor.2 (by push_cast; linarith)
      omega
    · have hfl : ⌊2 * t⌋ = ((2 * k : Nat) : Int) := by
        rw [Int.floor_eq_iff]
        push_cast
        constructor <;> linarith
      omega

/-- C114, what holds: after every movement, click and dragging, and after backspace and delete next to the caret, the caret
is shown at once.  Missing: typing (`C114_typing_violated`). -/
theorem C114_moved_partial (e : BoxEnv φ) (s s' : TextBox φ) (i : Input) (hi : s.restarts i = true)
    (h : handle e s i = some s') (hf : s'.focused = true) : s'.caretShown = true := by
  have hc := handle_caret h
  rw [if_pos hi] at hc
  simp [caretShown, hf, hc.2]

/-- C114, false: typing does not restart the caret: a hidden caret stays hidden while characters are typed, tabs and lines are entered or
text is pasted or cut; a typed character has moved it. -/
theorem C114_typing_violated (e : BoxEnv φ) (s s' : TextBox φ) (i : Input)
    (hi : (∃ c, i = .char c) ∨ i = .tab ∨ i = .enter ∨ i = .paste ∨ i = .cut) (hf : s.focused = true) (hs : s.caretShown = false)
    (h : handle e s i = some s') :
    s'.caretShown = false ∧ ∀ c, i = .char c → s.editable = true → s.sel = none → s.cursor.1 < s'.cursor.1 := by
  constructor
  · have hc := handle_caret h
    have hr : s.restarts i = false := by rcases hi with ⟨c, rfl⟩ | rfl | rfl | rfl | rfl <;> rfl
    rw [hr] at hc
    simp only [Bool.false_eq_true, if_false] at hc
    simp only [caretShown, hf, Bool.true_and, decide_eq_false_iff_not] at hs
    simp only [caretShown, hc.2, hs, decide_false, Bool.and_false]
  · rintro c rfl he hsel
    simp only [handle, hf, he, Bool.and_self, if_true, insertTyped, removeHighlighted, hsel] at h
    rw [insertText_fields h]
    show s.cursor.1 < s.cursor.1 + (utf8Encode c).length
    have : 0 < (utf8Encode c).length := by
      unfold utf8Encode
      split
      · simp
      · split
        · simp
        · split <;> simp
    omega

/-! ### Examples -/

/-- Two characters are typed and the caret moved back; it is hidden after 0.6 s, shown after 1.1 s, and after 7 s in one
frame. -/
example : ([[3/10, 3/10], [3/10, 3/10, 1/2], [7]].map fun ts : List Rat =>
    (({} : TextBox Nat).timedRun monoEnv 0
      ([.input .focus, .input (.char 97), .tick 2, .input (.char 98), .input (.left false false)] ++ ts.map .tick)).map
      fun r => (r.1.text, r.1.cursor.1, r.2, r.1.caretShown)) =
    [some ([97, 98], 1, 6/10, false), some ([97, 98], 1, 11/10, true), some ([97, 98], 1, 7, true)] := by decide +kernel

/-- The caret is hidden after 0.6 s; a character is typed, and it is still hidden. -/
example : (({} : TextBox Nat).timedRun monoEnv 0 [.input .focus, .input (.char 97), .input (.left false false),
    .tick (6/10), .input (.char 98)]).map (fun r => (r.1.text, r.1.cursor.1, r.1.caretShown)) = some ([98, 97], 1, false) := by decide +kernel

end RichText
