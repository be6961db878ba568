import Verif.Props.TextBox
import Verif.Proof.Characters
/-!
C78: editing keeps characters whole.
-/
namespace RichText
variable {φ : Type _}
namespace TextBox

/-! ### Moving -/

theorem Whole.shown {s : TextBox φ} (h : Whole s) (e : BoxEnv φ) : s.shown e = s.text := by
  unfold TextBox.shown
  simp [h.plain]

theorem Whole.showsRich {s : TextBox φ} (h : Whole s) : s.showsRich = false := by
  unfold TextBox.showsRich
  simp [h.plain]

theorem Whole.withDrag {s : TextBox φ} (h : Whole s) (d : Bool) : Whole { s with drag := d } :=
  ⟨h.plain, h.text, h.cursor, h.sel, h.clip⟩

theorem Whole.recalc {e : BoxEnv φ} {s s' : TextBox φ} (h : Whole s) (hr : TextBox.recalc e s = some s') : Whole s' := by
  have := recalc_fields hr
  rw [this]
  exact ⟨h.plain, h.text, h.cursor, h.sel, h.clip⟩

theorem Whole.setCursor {e : BoxEnv φ} {s s' : TextBox φ} (h : Whole s) {pos : Cursor} {b : Bool} (hp : CharBoundary s.text pos.1)
    (hs : TextBox.setCursor e s pos b = some s') : Whole s' := by
  unfold TextBox.setCursor at hs
  simp only at hs
  split at hs
  · cases hs
  · cases hs
    refine ⟨h.plain, h.text, hp, ?_, h.clip⟩
    intro c hc
    simp only at hc ⊢
    split at hc
    · split at hc
      · cases hc; exact h.cursor
      · rename_i c' hs
        cases hc; exact h.sel _ hs
    · cases hc

/-- A movement keeps characters whole. -/
def MovesWhole (e : BoxEnv φ) (f : TextBox φ → Bool → Option (TextBox φ)) : Prop :=
  ∀ s b s', Sound e s → s.shown e ≠ [] → Whole s → f s b = some s' → Whole s'

variable {e : BoxEnv φ}

theorem Whole.breaks (hw : e.Whole) {s : TextBox φ} (hs : Sound e s) (h : Whole s) :
    ∃ B, Breaks (e.breaks s.ctrl) B ∧ ∀ k, B k → CharBoundary s.text k := by
  rw [hs.ctrl, h.shown]
  exact hw.breaks _ h.text

theorem nextCharacter_whole (hw : e.Whole) : MovesWhole e (nextCharacter e) := by
  intro s b s' hs hne h hm
  obtain ⟨B, hB, hk⟩ := h.breaks hw hs
  refine h.setCursor ?_ hm
  rcases C50_next hB s.cursor with ⟨q, hq, he⟩ | ⟨-, he⟩
  · rw [he]; exact hk _ hq.1
  · rw [he]; exact h.cursor

theorem prevCharacter_whole (hw : e.Whole) : MovesWhole e (prevCharacter e) := by
  intro s b s' hs hne h hm
  obtain ⟨B, hB, hk⟩ := h.breaks hw hs
  refine h.setCursor ?_ hm
  rcases C50_prev hB s.cursor with ⟨q, hq, -, -, he⟩ | ⟨-, he⟩
  · rw [he]; exact hk _ hq
  · rw [he]; exact h.cursor

theorem nextWord_whole (hg : e.Good) (hw : e.Whole) : MovesWhole e (nextWord e) := by
  intro s b s' hs hne h hm
  obtain ⟨B, hB, hk⟩ := h.breaks hw hs
  unfold nextWord at hm
  obtain ⟨q, hq, hq'⟩ := C51_next_word hB (cursor := s.cursor) (by rw [hg.size, hs.ctrl]; exact hs.cursor)
  rw [hq] at hm
  refine h.setCursor ?_ hm
  rcases hq' with ⟨hst, -, -⟩ | ⟨-, ⟨rfl, -⟩ | ⟨rfl, -⟩⟩
  · exact hk _ hst.1
  · exact hk _ hB.last
  · exact h.cursor

theorem prevWord_whole (hg : e.Good) (hw : e.Whole) : MovesWhole e (prevWord e) := by
  intro s b s' hs hne h hm
  obtain ⟨B, hB, hk⟩ := h.breaks hw hs
  unfold prevWord at hm
  obtain ⟨q, hq, hq'⟩ := C51_prev_word hB (hg.spaces s.ctrl) s.cursor
  rw [hq] at hm
  refine h.setCursor ?_ hm
  rcases hq' with ⟨hst, -, -⟩ | ⟨-, ⟨rfl, -⟩ | ⟨rfl, -⟩⟩
  · exact hk _ hst.1
  · exact hk _ hB.first
  · exact h.cursor

theorem textStart_whole : MovesWhole e (textStart e) := by
  intro s b s' _ _ h hm
  exact h.setCursor (.zero h.text) hm

theorem textEnd_whole : MovesWhole e (textEnd e) := by
  intro s b s' hs _ h hm
  refine h.setCursor ?_ hm
  rw [hs.ctrl, h.shown]
  exact .full h.text

/-- The layout of a sound box with whole characters. -/
theorem Whole.lines (hw : e.Whole) {s : TextBox φ} (hs : Sound e s) (hne : s.shown e ≠ []) (h : Whole s) :
    ∃ ls y, Stores s.layout ls [] y ∧ (∀ l ∈ ls, l.runs ≠ []) ∧ s.layout.pos.length < 4294967296 ∧ (∀ l ∈ ls, ProperLine l) ∧
      s.info.line < ls.length ∧ s.layout.lines.length = ls.length ∧
      ∀ l ∈ ls, ∀ r ∈ l.runs, CharBoundary s.text r.charStart ∧ CharBoundary s.text r.charEnd ∧ ∀ g ∈ r.glyphs, CharBoundary s.text g.char := by
  obtain ⟨hla, hli⟩ := hs.laid hne
  rw [h.showsRich] at hla
  obtain ⟨ls, y, h1, h3, h4, h5⟩ := hw.layout _ h.text (by rw [← h.shown e]; exact hne) hs.small
  rw [← hla] at h1 h4
  exact ⟨ls, y, h1, h3, h4, fun l hl => (h5 l hl).1, by rw [← h1.lineCount]; exact hli, h1.lineCount, fun l hl => (h5 l hl).2⟩

theorem closest_whole (hw : e.Whole) {s : TextBox φ} (hs : Sound e s) (hne : s.shown e ≠ []) (h : Whole s) {m : Nat}
    (hm : m < s.layout.lines.length) {x : Rat} {c : Cursor} (hc : (e.breaks s.ctrl).closestInLine s.layout e.width e.align m x = some c) :
    CharBoundary s.text c.1 := by
  obtain ⟨ls, y, h1, h2, h3, h4, -, h5, h6⟩ := h.lines hw hs hne
  obtain ⟨B, hB, hk⟩ := h.breaks hw hs
  have hf : FollowsBoundaries (e.breaks s.ctrl).follow B := by
    refine ⟨?_, ?_, ?_⟩
    · intro k n hk
      have := hB.follow_next k n hk
      exact ⟨this.1, this.2.1, fun b hb hBb => this.2.2 b hBb hb⟩
    · exact fun k b hk hb => hB.follow_done k b hk hb
    · intro b hb
      have := (hk b hb).inside
      have := hs.small
      have := hw.limit
      omega
  have hl := List.getElem?_eq_getElem (show m < ls.length by omega)
  have hmem := List.mem_of_getElem? hl
  obtain ⟨p, a, h7, h8⟩ := findClosest_at h1 h2 h3 hl (h4 _ hmem) e.width e.align hf (P := CharBoundary s.text) hk (h6 _ hmem) x
  unfold BreakEnv.closestInLine at hc
  rw [h7] at hc
  cases hc
  exact h8

theorem nextLine_whole (hw : e.Whole) : MovesWhole e (nextLine e) := by
  intro s b s' hs hne h hm
  have hli := (hs.laid hne).2
  unfold nextLine at hm
  split at hm
  · rename_i hlt
    split at hm
    · cases hm
    · rename_i c hc
      exact h.setCursor (closest_whole hw hs hne h (by omega) hc) hm
  · exact h.setCursor h.cursor hm

theorem prevLine_whole (hw : e.Whole) : MovesWhole e (prevLine e) := by
  intro s b s' hs hne h hm
  have hli := (hs.laid hne).2
  unfold prevLine at hm
  split at hm
  · rename_i hlt
    split at hm
    · cases hm
    · rename_i c hc
      exact h.setCursor (closest_whole hw hs hne h (by omega) hc) hm
  · exact h.setCursor h.cursor hm

theorem lineStart_whole (hw : e.Whole) : MovesWhole e (lineStart e) := by
  intro s b s' hs hne h hm
  obtain ⟨ls, y, h1, h2, -, -, h3, -, h6⟩ := h.lines hw hs hne
  have hl := List.getElem?_eq_getElem h3
  obtain ⟨⟨p, a, q1, r, hr, q2⟩, -⟩ := C23_in_line h1 h2 s.info.line _ hl
  unfold lineStart at hm
  rw [q1] at hm
  refine h.setCursor ?_ hm
  have := h6 _ (List.mem_of_getElem? hl) r hr
  rcases q2 with rfl | rfl
  exacts [this.1, this.2.1]

theorem lineEnd_whole (hw : e.Whole) : MovesWhole e (lineEnd e) := by
  intro s b s' hs hne h hm
  obtain ⟨ls, y, h1, h2, -, -, h3, -, h6⟩ := h.lines hw hs hne
  have hl := List.getElem?_eq_getElem h3
  obtain ⟨-, ⟨p, a, q1, r, hr, q2⟩⟩ := C23_in_line h1 h2 s.info.line _ hl
  unfold lineEnd at hm
  rw [q1] at hm
  refine h.setCursor ?_ hm
  have := h6 _ (List.mem_of_getElem? hl) r hr
  rcases q2 with rfl | rfl
  exacts [this.1, this.2.1]

theorem toMouse_whole (hw : e.Whole) (x y : Rat) : MovesWhole e (fun s b => toMouse e s x y b) := by
  intro s b s' hs hne h hm
  have hli := (hs.laid hne).2
  simp only at hm
  unfold toMouse at hm
  obtain ⟨m, h1, h2⟩ := closestToPositionLine_total (L := s.layout) (List.ne_nil_of_length_pos (by omega)) y
  unfold BreakEnv.closestToPosition at hm
  rw [h1] at hm
  simp only at hm
  split at hm
  · cases hm
  · rename_i c hc
    exact h.setCursor (closest_whole hw hs hne h h2 hc) hm

theorem between_whole {f g : TextBox φ → Bool → Option (TextBox φ)} (hf : MovesWhole e f) (hg : MovesWhole e g)
    (hs : ∀ s b, Sound e s → s.shown e ≠ [] → ∃ s', f s b = some s' ∧ Sound e s' ∧ Moved s s') {s s' : TextBox φ}
    (h1 : Sound e s) (hne : s.shown e ≠ []) (h : Whole s) (hm : selectBetween f g s = some s') : Whole s' := by
  unfold selectBetween at hm
  obtain ⟨s1, a1, a2, a3⟩ := hs s false h1 hne
  rw [a1] at hm
  exact hg s1 true s' a2 (by rw [a3.shown]; exact hne) (hf s false s1 h1 hne h a1) hm

/-! ### Editing -/

theorem Whole.removeText {s s' : TextBox φ} (h : Whole s) {a b : Nat} (ha : CharBoundary s.text a) (hb : CharBoundary s.text b)
    (hc : s.cursor.1 = a) (hsel : s.sel = none) (hm : TextBox.removeText e s a b = some s') : Whole s' := by
  obtain ⟨-, h2⟩ := removeText_fields hm
  obtain ⟨h3, h4⟩ := ha.remove hb
  rw [h2]
  refine ⟨h.plain, h3, ?_, ?_, h.clip⟩
  · simp only [hc]; exact h4
  · intro c hc'
    simp only [hsel] at hc'
    cases hc'

theorem Whole.removeHighlighted {s s' : TextBox φ} (h : Whole s) (hm : TextBox.removeHighlighted e s = some s') : Whole s' := by
  unfold TextBox.removeHighlighted at hm
  split at hm
  · cases hm; exact h
  · rename_i start hs
    have hst := h.sel _ hs
    split at hm
    · cases hm; exact h
    · split at hm
      · have : Whole { s with sel := none } := ⟨h.plain, h.text, h.cursor, fun c hc => (by cases hc), h.clip⟩
        exact this.removeText h.cursor hst rfl rfl hm
      · have : Whole { s with cursor := start, sel := none } := ⟨h.plain, h.text, hst, fun c hc => (by cases hc), h.clip⟩
        exact this.removeText hst h.cursor rfl rfl hm

theorem Whole.insertText {s s' : TextBox φ} (h : Whole s) {ins : Bytes} (hi : ValidUtf8 ins)
    (hsel : ∀ c, s.sel = some c → c = s.cursor) (hm : TextBox.insertText e s ins s.cursor.1 = some s') : Whole s' := by
  have hf := insertText_fields hm
  obtain ⟨h3, h4⟩ := h.cursor.insert hi
  rw [hf]
  refine ⟨h.plain, h3, h4, ?_, h.clip⟩
  intro c hc
  obtain rfl := hsel c hc
  have hv := h.cursor
  have hl : (s.text.take s.cursor.1).length = s.cursor.1 := by rw [List.length_take]; have := hv.inside; omega
  simp only [List.append_assoc]
  refine ⟨?_, ?_, ?_⟩
  · rw [List.length_append]; omega
  · rw [List.take_append_of_le_length (by omega), List.take_of_length_le (by omega)]; exact hv.before
  · rw [List.drop_append_of_le_length (by omega), List.drop_of_length_le (by omega)]; exact hi.append hv.behind

/-- Behind `remove_highlighted_text` a selection is of nothing. -/
theorem removeHighlighted_sel {s s' : TextBox φ} (hm : TextBox.removeHighlighted e s = some s') :
    ∀ c, s'.sel = some c → c = s'.cursor := by
  unfold TextBox.removeHighlighted at hm
  split at hm
  · rename_i hs
    cases hm
    intro c hc; rw [hs] at hc; cases hc
  · rename_i start hs
    split at hm
    · rename_i heq
      cases hm
      intro c hc; rw [hs] at hc; cases hc; exact heq
    · split at hm
      · obtain ⟨-, h2⟩ := removeText_fields hm
        intro c hc
        rw [h2] at hc
        cases hc
      · obtain ⟨-, h2⟩ := removeText_fields hm
        intro c hc
        rw [h2] at hc
        cases hc

theorem Whole.insertTyped {s s' : TextBox φ} (h : Whole s) {c : Nat} (hc : c.isValidChar)
    (hm : TextBox.insertTyped e s c = some s') : Whole s' := by
  unfold TextBox.insertTyped at hm
  split at hm
  · cases hm
  · rename_i s1 h1
    exact (h.removeHighlighted h1).insertText (utf8Encode_valid hc) (removeHighlighted_sel h1) hm

theorem Whole.copy {s s' : TextBox φ} (h : Whole s) (hm : TextBox.copy s = some s') : Whole s' := by
  unfold TextBox.copy at hm
  split at hm
  · cases hm; exact h
  · rename_i start hs
    simp only at hm
    split at hm
    · cases hm; exact h
    · split at hm
      · cases hm
        refine ⟨h.plain, h.text, h.cursor, h.sel, ?_⟩
        intro t ht
        cases ht
        apply ValidUtf8.takeWhile_nul
        have h1 := h.sel _ hs
        have h2 := h.cursor
        rcases Nat.le_total start.1 s.cursor.1 with hle | hle
        · rw [Nat.min_eq_left hle, Nat.max_eq_right hle]
          exact h1.between h2 hle
        · rw [Nat.min_eq_right hle, Nat.max_eq_left hle]
          exact h2.between h1 hle
      · cases hm

theorem Whole.paste {s s' : TextBox φ} (h : Whole s) (hm : TextBox.paste e s = some s') : Whole s' := by
  unfold TextBox.paste at hm
  split at hm
  · cases hm; exact h
  · split at hm
    · cases hm
    · rename_i s1 h1
      have h2 := h.removeHighlighted h1
      split at hm
      · cases hm
      · rename_i t ht
        exact h2.insertText (h2.clip t ht) (removeHighlighted_sel h1) hm

theorem Whole.cut {s s' : TextBox φ} (h : Whole s) (hm : TextBox.cut e s = some s') : Whole s' := by
  unfold TextBox.cut at hm
  split at hm
  · cases hm; exact h
  · split at hm
    · cases hm
    · rename_i s1 h1
      exact (h.copy h1).removeHighlighted hm

theorem Whole.focus {s s' : TextBox φ} (h : Whole s) (hm : TextBox.focus e s = some s') : Whole s' := by
  unfold TextBox.focus at hm
  split at hm
  · cases hm; exact h
  · have h' : Whole { s with focused := true } := ⟨h.plain, h.text, h.cursor, h.sel, h.clip⟩
    exact h'.recalc hm

theorem Whole.blur {s s' : TextBox φ} (h : Whole s) (hm : TextBox.blur e s = some s') : Whole s' := by
  unfold TextBox.blur at hm
  split at hm
  · have h' : Whole { s with focused := false, sel := none, drag := false } :=
      ⟨h.plain, h.text, h.cursor, fun c hc => (by cases hc), h.clip⟩
    exact h'.recalc hm
  · cases hm; exact h

theorem Whole.enter {s s' : TextBox φ} (h : Whole s) (hm : TextBox.enter e s = some s') : Whole s' := by
  unfold TextBox.enter at hm
  split at hm
  · split at hm
    · cases hm
    · rename_i s1 h1
      exact (h.removeHighlighted h1).insertTyped (by decide) hm
  · exact h.blur hm

theorem Whole.backspace (hg : e.Good) (hw : e.Whole) {s s' : TextBox φ} (hs : Sound e s) (h : Whole s) {ctrl : Bool}
    (hm : TextBox.backspace e s ctrl = some s') : Whole s' := by
  unfold TextBox.backspace at hm
  split at hm
  · exact h.removeHighlighted hm
  · split at hm
    · rename_i hpos
      have hc := hs.cursor
      have hne : s.shown e ≠ [] := by
        intro h0; rw [h0] at hc; simp at hc; omega
      split at hm
      · cases hm
      · rename_i s1 h1
        have key : Whole s1 ∧ s1.text = s.text ∧ s1.sel = none := by
          split at h1
          · refine ⟨prevWord_whole hg hw s false s1 hs hne h h1, ?_⟩
            unfold TextBox.prevWord at h1
            split at h1
            · cases h1
            · obtain ⟨a, b⟩ := setCursor_fields h1
              exact ⟨by rw [a], b rfl⟩
          · refine ⟨prevCharacter_whole hw s false s1 hs hne h h1, ?_⟩
            obtain ⟨a, b⟩ := setCursor_fields h1
            exact ⟨by rw [a], b rfl⟩
        obtain ⟨k1, k2, k3⟩ := key
        exact k1.removeText k1.cursor (by rw [k2]; exact h.cursor) rfl k3 hm
    · cases hm; exact h

theorem Whole.delete (hg : e.Good) (hw : e.Whole) {s s' : TextBox φ} (hs : Sound e s) (h : Whole s) {ctrl : Bool}
    (hm : TextBox.delete e s ctrl = some s') : Whole s' := by
  unfold TextBox.delete at hm
  split at hm
  · exact h.removeHighlighted hm
  · split at hm
    · rename_i hpos
      have hne : s.shown e ≠ [] := by
        rw [h.shown]; intro h0; rw [h0] at hpos; simp at hpos
      split at hm
      · cases hm
      · rename_i s1 h1
        have key : Whole s1 ∧ s1.text = s.text ∧ s1.sel = none := by
          split at h1
          · refine ⟨nextWord_whole hg hw s false s1 hs hne h h1, ?_⟩
            unfold TextBox.nextWord at h1
            split at h1
            · cases h1
            · obtain ⟨a, b⟩ := setCursor_fields h1
              exact ⟨by rw [a], b rfl⟩
          · refine ⟨nextCharacter_whole hw s false s1 hs hne h h1, ?_⟩
            obtain ⟨a, b⟩ := setCursor_fields h1
            exact ⟨by rw [a], b rfl⟩
        obtain ⟨k1, k2, k3⟩ := key
        have hcur : CharBoundary s1.text s.cursor.1 := by rw [k2]; exact h.cursor
        have k4 : Whole { s1 with cursor := s.cursor } := ⟨k1.plain, k1.text, hcur, k1.sel, k1.clip⟩
        exact k4.removeText hcur k1.cursor rfl k3 hm
    · cases hm; exact h

theorem Whole.press (hg : e.Good) (hw : e.Whole) {s s' : TextBox φ} (hs : Sound e s) (hne : s.shown e ≠ []) (h : Whole s) {x y : Rat}
    {shift : Bool} {clicks : Nat} (hm : TextBox.press e s x y shift clicks = some s') : Whole s' := by
  unfold TextBox.press at hm
  split at hm
  · obtain ⟨s1, h1, h2, h3⟩ := toMouse_sound hg hs hne x y shift
    have hne1 : s1.shown e ≠ [] := by rw [h3.shown]; exact hne
    have hw1 := toMouse_whole hw x y s shift s1 hs hne h h1
    rw [h1] at hm
    simp only at hm
    split at hm
    · cases hm
    · rename_i s2 h4
      cases hm
      apply Whole.withDrag
      unfold clickSelect at h4
      split at h4
      · exact between_whole (prevWord_whole hg hw) (nextWord_whole hg hw) (fun s b hs hn => (words_sound hg hs hn b).2) h2 hne1 hw1 h4
      · exact between_whole (lineStart_whole hw) (lineEnd_whole hw) (fun s b hs hn => (ends_sound hg hs hn b).1) h2 hne1 hw1 h4
      · exact between_whole textStart_whole textEnd_whole (fun s b hs hn => setCursor_sound hg hs hn (Nat.zero_le _) b) h2 hne1 hw1 h4
      · cases h4; exact hw1
  · obtain ⟨s1, h1, h2, -⟩ := recalc_sound hg hs.mode hs.small hs.cursor hs.sel
    have hw1 := h.recalc h1
    have ht : s1.text = s.text := by rw [recalc_fields h1]
    have hne1 : s1.shown e ≠ [] := by rw [hw1.shown, ht, ← h.shown e]; exact hne
    rw [h1] at hm
    simp only at hm
    split at hm
    · cases hm
    · rename_i s2 h4
      have hw2 := toMouse_whole hw x y s1 shift s2 h2 hne1 hw1 h4
      exact (hw2.withDrag true).focus hm

theorem handle_whole (hg : e.Good) (hw : e.Whole) {s s' : TextBox φ} (hs : Sound e s) (h : Whole s) {i : Input}
    (hi : s.shown e ≠ [] ∨ i.moves = false) (ht : i.typesChar) (hm : handle e s i = some s') : Whole s' := by
  cases i <;> simp only [handle, key] at hm <;>
    (try simp only [Input.moves, Bool.true_eq_false, or_false] at hi)
  case press => exact h.press hg hw hs hi hm
  case release => split at hm <;> cases hm <;> [exact h.withDrag false; exact h]
  case move x y =>
    split at hm
    · exact toMouse_whole hw x y s true s' hs hi h hm
    · cases hm; exact h
  case char c =>
    split at hm
    · exact h.insertTyped ht hm
    · cases hm; exact h
  case focus => exact h.focus hm
  case blur => exact h.blur hm
  all_goals split at hm
  all_goals try (cases hm; exact h)
  case up => exact prevLine_whole hw s _ s' hs hi h hm
  case down => exact nextLine_whole hw s _ s' hs hi h hm
  case left =>
    split at hm
    · exact prevWord_whole hg hw s _ s' hs hi h hm
    · exact prevCharacter_whole hw s _ s' hs hi h hm
  case right =>
    split at hm
    · exact nextWord_whole hg hw s _ s' hs hi h hm
    · exact nextCharacter_whole hw s _ s' hs hi h hm
  case home =>
    split at hm
    · exact textStart_whole s _ s' hs hi h hm
    · exact lineStart_whole hw s _ s' hs hi h hm
  case «end» =>
    split at hm
    · exact textEnd_whole s _ s' hs hi h hm
    · exact lineEnd_whole hw s _ s' hs hi h hm
  case backspace => exact Whole.backspace hg hw hs h hm
  case delete => exact Whole.delete hg hw hs h hm
  case enter => exact h.enter hm
  case tab => exact h.insertTyped (by decide) hm
  case cut => exact h.cut hm
  case copy => exact h.copy hm
  case paste => exact h.paste hm
  case selectAll =>
    exact between_whole textStart_whole textEnd_whole (fun s b hs hn => setCursor_sound hg hs hn (Nat.zero_le _) b) hs hi h hm

end TextBox

/-! ### C78 -/

/-- C78 (partial: plain text only; the inputs are those of C52, and characters are
typed).  After every sequence of inputs the text is valid UTF-8, cursor and selection
are not inside a character, and so is what was copied. -/
theorem C78_whole_partial {e : BoxEnv φ} (hg : e.Good) (hw : e.Whole) : ∀ (is : List TextBox.Input) {s : TextBox φ}, TextBox.Sound e s →
    s.Whole → (∀ pre i post s', is = pre ++ i :: post → TextBox.run e s pre = some s' → TextBox.Allowed e s' i ∧ i.typesChar) →
    ∃ s', TextBox.run e s is = some s' ∧ s'.Whole
  | [], s, _, h, _ => ⟨s, rfl, h⟩
  | i :: is, s, hs, h, hall => by
    obtain ⟨ha, ht⟩ := hall [] i is s rfl rfl
    obtain ⟨s1, h1, h2⟩ := TextBox.handle_sound hg hs ha
    have hw1 := TextBox.handle_whole hg hw hs h ha.1 ht h1
    have hs1 : TextBox.Sound e s1 := by
      rcases h2 with h2 | h2
      · exact h2
      · have := h2.mode.1
        rw [hw1.plain] at this
        cases this
    obtain ⟨s', h3, h4⟩ := C78_whole_partial hg hw is hs1 hw1 (fun pre j post s' he hr => hall (i :: pre) j post s' (by rw [he]; rfl) (by
      rw [TextBox.run, h1]; exact hr))
    exact ⟨s', by rw [TextBox.run, h1]; exact h3, h4⟩

/-! ### A concrete environment -/

/-- A character starts or the text ends at the position. -/
def starts (t : Bytes) (k : Nat) : Bool :=
  decide (k = 0) || decide (k = t.length) || match t[k]? with
    | some b => decide (¬ isTrailByte b)
    | none => false

def prevStart (t : Bytes) : Nat → Option Nat
  | 0 => none
  | k + 1 => if starts t k then some k else prevStart t k

/-- Every character is a grapheme. -/
def charEnv (t : Bytes) : BreakEnv where
  size := t.length
  follow k := (List.range (t.length + 1)).find? fun m => decide (k < m) && starts t m
  precede k := prevStart t k
  char k := if k ≤ t.length then some (((t[k]?).getD 0).toNat : Int) else none
  space c := c == 32 || c == 9 || c == 10 || c == 13 || c == 0x2028 || c == 0x2029

def charLayout (n : Nat) : Layout Nat :=
  (execLayout {} [.run 0 [⟨1, 0, 0, 0⟩] (5 * n) 0 0 n false, .line 10 8]).getD {}

/-- The text is one ligature on one line; the markup of one text is understood. -/
def markup : Bytes := b!"<u>a</u>" ++ [0xE2, 0x82, 0xAC, 0xE2, 0x82, 0xAC, 0xE2, 0x82, 0xAC]

def utfEnv : BoxEnv Nat where
  breaks := charEnv
  content t := if t = markup then b!"a" ++ [0xE2, 0x82, 0xAC, 0xE2, 0x82, 0xAC, 0xE2, 0x82, 0xAC] else t
  layout rich t := charLayout (if rich && t == markup then 10 else t.length)
  width := 100
  align := .left
  emptyHeight := 10

theorem starts_le {t : Bytes} {k : Nat} (h : starts t k = true) : k ≤ t.length := by
  unfold starts at h
  simp only [Bool.or_eq_true, decide_eq_true_eq] at h
  rcases h with (rfl | rfl) | h
  · exact Nat.zero_le _
  · exact Nat.le_refl _
  · split at h
    · rename_i b hb
      exact Nat.le_of_lt (List.getElem?_eq_some_iff.1 hb).1
    · cases h

theorem prevStart_some {t : Bytes} {k n : Nat} (h : prevStart t k = some n) :
    n < k ∧ starts t n = true ∧ ∀ m, starts t m = true → m < k → m ≤ n := by
  induction k with
  | zero => cases h
  | succ k ih =>
    unfold prevStart at h
    split at h
    · rename_i hs
      cases h
      exact ⟨by omega, hs, fun m _ hm => by omega⟩
    · rename_i hs
      obtain ⟨h1, h2, h3⟩ := ih h
      refine ⟨by omega, h2, fun m hm hlt => ?_⟩
      by_cases hmk : m = k
      · subst hmk; exact absurd hm hs
      · exact h3 m hm (by omega)

theorem prevStart_none {t : Bytes} {k m : Nat} (h : prevStart t k = none) (hm : m < k) : ¬ starts t m = true := by
  induction k with
  | zero => omega
  | succ k ih =>
    unfold prevStart at h
    split at h
    · cases h
    · rename_i hs
      by_cases hmk : m = k
      · subst hmk; exact hs
      · exact ih h (by omega)

theorem charEnv_breaks (t : Bytes) : Breaks (charEnv t) (fun k => starts t k = true) where
  first := by simp [starts]
  last := by simp [starts, charEnv]
  inside := fun _ h => starts_le h
  follow_next := by
    intro k n hf
    simp only [charEnv, List.find?_range_eq_some] at hf
    obtain ⟨h1, h2, h3⟩ := hf
    simp only [Bool.and_eq_true, decide_eq_true_eq] at h1
    refine ⟨h1.1, h1.2, fun m hm hlt => ?_⟩
    apply Nat.le_of_not_lt
    intro hmn
    have := h3 m hmn
    simp [hlt, hm] at this
  follow_done := by
    intro k m hf hlt hm
    simp only [charEnv, List.find?_eq_none] at hf
    have := hf m (by rw [List.mem_range]; have := starts_le hm; omega)
    simp [hlt, hm] at this
  precede_prev := fun k n hf => prevStart_some hf
  precede_done := fun k m hf hlt => prevStart_none hf hlt
  char := by
    intro k hk
    simp only [charEnv] at hk ⊢
    rw [if_pos hk]; simp

/-- A position where a character starts is a boundary of valid text. -/
theorem starts_boundary {t : Bytes} (h : ValidUtf8 t) {k : Nat} (hk : starts t k = true) : CharBoundary t k := by
  have hle := starts_le hk
  unfold starts at hk
  simp only [Bool.or_eq_true, decide_eq_true_eq] at hk
  rcases hk with (rfl | rfl) | hk
  · exact .zero h
  · exact .full h
  · split at hk
    · rename_i b hb
      have hd : t.drop k = b :: t.drop (k + 1) := by
        obtain ⟨hlt, he⟩ := List.getElem?_eq_some_iff.1 hb
        rw [List.drop_eq_getElem_cons hlt, he]
      have h' := h
      rw [← List.take_append_drop k t] at h'
      obtain ⟨h1, h2⟩ := h'.cut (by
        intro c l hc
        rw [hd] at hc
        cases hc
        simpa using hk)
      exact ⟨hle, h1, h2⟩
    · cases hk

theorem charLayout_on {n : Nat} (h0 : 0 < n) (h : n < 2147483647) {P : Nat → Prop} (p0 : P 0) (pn : P n) :
    LaidOutOn (charLayout n) P ∧ LaidOut (charLayout n) n := by
  have hst : Draft.steps {} [.run 0 [⟨1, 0, 0, 0⟩] (5 * n) 0 0 n false, .line 10 8] =
      some (⟨[⟨[⟨0, [⟨1, 0, 0, 0⟩], 5 * n, 0, 0, n, 0, false⟩], 10, 8⟩], [], 0⟩ : Draft Nat) := rfl
  obtain ⟨L, hL, hs⟩ := C19_stores _ _ hst
  have e : charLayout n = L := by unfold charLayout; rw [hL]; rfl
  have hltr : LtrRun (⟨0, [⟨1, 0, 0, 0⟩], 5 * n, 0, 0, n, 0, false⟩ : RunSpec Nat) := by
    refine ⟨rfl, ?_, ?_, ?_, ?_, ?_⟩
    · intro i g g' hg hg'
      have := getElem?_lt hg'
      simp at this
    · intro g hg
      cases hg; rfl
    · intro hn; cases hn
    · intro g hg
      simp only [List.mem_singleton] at hg
      subst hg; exact h0
    · intro i a b ha hb
      have hi := getElem?_lt hb
      simp only [RunSpec.xs, List.map_cons, List.map_nil, List.cons_append, List.nil_append, List.length_cons, List.length_nil] at hi
      obtain rfl : i = 0 := by omega
      simp [RunSpec.xs] at ha hb
      rw [← ha, ← hb]
      positivity
  have hprop : ProperLine (⟨[⟨0, [⟨1, 0, 0, 0⟩], 5 * n, 0, 0, n, 0, false⟩], 10, 8⟩ : LineSpec Nat) := by
    refine ⟨?_, ?_, ?_⟩
    · intro r hr
      simp only [List.mem_singleton] at hr
      subst hr
      exact Or.inl hltr
    · intro i r s _ hs
      have := getElem?_lt hs
      simp at this
    · intro r hr
      simp only [List.mem_singleton] at hr
      subst hr
      show n < _
      omega
  have hpos : L.pos.length < 4294967296 := by
    have := hs.pos_length
    simp [allRuns, glyphCount] at this
    omega
  rw [e]
  constructor
  · refine ⟨_, _, hs, ?_, hpos, ?_⟩
    · intro l hl
      simp only [List.mem_singleton] at hl
      subst hl; simp
    · intro l hl
      simp only [List.mem_singleton] at hl
      subst hl
      refine ⟨hprop, ?_⟩
      intro r hr
      simp only [List.mem_singleton] at hr
      subst hr
      refine ⟨p0, pn, ?_⟩
      intro g hg
      simp only [List.mem_singleton] at hg
      subst hg; exact p0
  · refine ⟨_, _, hs, by simp, ?_, hpos, ?_⟩
    · intro l hl
      simp only [List.mem_singleton] at hl
      subst hl; simp
    · intro l hl
      simp only [List.mem_singleton] at hl
      subst hl
      refine ⟨hprop, ?_⟩
      intro r hr
      simp only [List.mem_singleton] at hr
      subst hr
      exact Nat.le_refl _

theorem utfEnv_good : utfEnv.Good where
  limit := ⟨by decide, by decide⟩
  size := fun t => rfl
  breaks := fun t => ⟨_, charEnv_breaks t⟩
  spaces := fun t => by
    intro c hc
    rw [isLineBreak_iff] at hc
    rcases hc with rfl | rfl | rfl | rfl <;> rfl
  layout := fun t ht h => by
    simpa [utfEnv] using (charLayout_on (P := fun _ => True) (List.length_pos_iff.2 ht) h trivial trivial).2
  content := fun t => by
    simp only [utfEnv]
    split
    · rename_i h
      rw [h]; decide
    · exact Nat.le_refl _
  rich := fun t ht h => by
    simp only [utfEnv, Bool.true_and, beq_iff_eq] at ht ⊢
    split
    · exact (charLayout_on (P := fun _ => True) (by decide) (by decide) trivial trivial).2
    · rename_i hm
      rw [if_neg hm] at ht
      exact (charLayout_on (P := fun _ => True) (List.length_pos_iff.2 ht) h trivial trivial).2

theorem utfEnv_whole : utfEnv.Whole where
  limit := by decide
  breaks := fun t ht => ⟨_, charEnv_breaks t, fun k hk => starts_boundary ht hk⟩
  layout := fun t ht hne h => by
    simpa [utfEnv] using (charLayout_on (List.length_pos_iff.2 hne) h (CharBoundary.zero ht) (CharBoundary.full ht)).1

open TextBox in
/-- A session: type "aé€", go left twice, select to the end, copy, paste twice, Backspace. -/
example : (run utfEnv {} [.focus, .char 97, .char 0xE9, .char 0x20AC, .left false false, .left false false, .end true false, .copy,
      .paste, .paste, .backspace false]).map (fun s => (s.text, s.cursor, s.clip)) =
    some ([97, 0xC3, 0xA9, 0xE2, 0x82, 0xAC, 0xC3, 0xA9], (8, .default), some [0xC3, 0xA9, 0xE2, 0x82, 0xAC]) := by decide +kernel

/-! ### Violations -/

/-- C78 is false as stated for editable rich text: a click is looked up in what is
shown, the cursor is then used in the source.  In `<u>a</u>€€€`, shown as "a€€€", a
click behind the text and typing "x" tears the first "€" apart. -/
theorem C78_rich_violated : utfEnv.Good ∧ utfEnv.Whole ∧ ValidUtf8 markup ∧ ∃ s,
    ((TextBox.setText utfEnv { rich := true } markup).bind fun s => TextBox.run utfEnv s [.press 50 2 false 0, .release, .char 120]) = some s ∧
      s.text = b!"<u>a</u>" ++ [0xE2, 0x82, 120, 0xAC, 0xE2, 0x82, 0xAC, 0xE2, 0x82, 0xAC] ∧ ¬ ValidUtf8 s.text := by
  have h : ((TextBox.setText utfEnv { rich := true } markup).bind fun s =>
      TextBox.run utfEnv s [.press 50 2 false 0, .release, .char 120]).map (·.text) =
        some (b!"<u>a</u>" ++ [0xE2, 0x82, 120, 0xAC, 0xE2, 0x82, 0xAC, 0xE2, 0x82, 0xAC]) := by decide +kernel
  obtain ⟨s, hs, he⟩ := Option.map_eq_some_iff.1 h
  refine ⟨utfEnv_good, utfEnv_whole, ⟨"<u>a</u>€€€".toList, by decide +kernel⟩, s, hs, he, ?_⟩
  intro hv
  rw [he] at hv
  have := (ValidUtf8.split (x := b!"<u>a</u>" ++ [0xE2, 0x82]) (b := 120) (y := [0xAC, 0xE2, 0x82, 0xAC, 0xE2, 0x82, 0xAC]) (by decide) hv).2
  exact absurd this.head_not_trail (by decide)

/-- C78 is false as stated when the program sets the text: `set_text` leaves the
cursor where it is, here inside the new text's only character. -/
theorem C78_set_text_violated : utfEnv.Good ∧ utfEnv.Whole ∧ ValidUtf8 [0xC3, 0xA9] ∧ ∃ s,
    ((TextBox.run utfEnv {} [.focus, .char 97]).bind fun s => (TextBox.setText utfEnv s [0xC3, 0xA9]).bind fun s =>
      TextBox.run utfEnv s [.char 120]) = some s ∧ s.text = [0xC3, 120, 0xA9] ∧ ¬ ValidUtf8 s.text := by
  have h : ((TextBox.run utfEnv {} [.focus, .char 97]).bind fun s => (TextBox.setText utfEnv s [0xC3, 0xA9]).bind fun s =>
      TextBox.run utfEnv s [.char 120]).map (·.text) = some [0xC3, 120, 0xA9] := by decide +kernel
  obtain ⟨s, hs, he⟩ := Option.map_eq_some_iff.1 h
  refine ⟨utfEnv_good, utfEnv_whole, ⟨['é'], by decide +kernel⟩, s, hs, he, ?_⟩
  intro hv
  rw [he] at hv
  have := (ValidUtf8.split (x := [0xC3]) (b := 120) (y := [0xA9]) (by decide) hv).2
  exact absurd this.head_not_trail (by decide)

end RichText
