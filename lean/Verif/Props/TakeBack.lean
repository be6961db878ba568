import Verif.Props.TextBox
/-!
C136: what is typed can be taken back, and what is deleted typed again.
-/
namespace RichText
variable {φ : Type _}

/-- A break iterator has one set of boundaries. -/
theorem Breaks.unique {b : BreakEnv} {B B' : Nat → Prop} (h : Breaks b B) (h' : Breaks b B') (m : Nat) (hm : B m) : B' m := by
  rcases Nat.eq_zero_or_pos m with rfl | hm0
  · exact h'.first
  · cases hf : b.follow (m - 1) with
    | none => exact absurd hm (h.follow_done (m - 1) m hf (by omega))
    | some n =>
      obtain ⟨r1, -, r3⟩ := h.follow_next _ _ hf
      have : n = m := Nat.le_antisymm (r3 m hm (by omega)) (by omega)
      rw [← this]
      exact (h'.follow_next _ _ hf).2.1

namespace TextBox

/-- The text with a character inserted. -/
def typedInto (t : Bytes) (p c : Nat) : Bytes := t.take p ++ utf8Encode c ++ t.drop p

/-- The character typed at a position is a grapheme cluster or the end of one that starts there: ICU has a boundary in front of it and none inside. -/
def StandsAlone (e : BoxEnv φ) (t : Bytes) (p c : Nat) : Prop :=
  ∀ B, Breaks (e.breaks (typedInto t p c)) B → B p ∧ ∀ m, p < m → m < p + (utf8Encode c).length → ¬ B m

/-- Each character of a sequence stands alone when it is typed. -/
def AllStandAlone (e : BoxEnv φ) : Bytes → Nat → List Nat → Prop
  | _, _, [] => True
  | t, p, c :: cs => StandsAlone e t p c ∧ AllStandAlone e (typedInto t p c) (p + (utf8Encode c).length) cs

/-- A box in which the user edits, with nothing selected. -/
structure Editing (e : BoxEnv φ) (s : TextBox φ) : Prop where
  sound : Sound e s
  focused : s.focused = true
  editable : s.editable = true
  sel : s.sel = none

theorem Editing.shown {e : BoxEnv φ} {s : TextBox φ} (h : Editing e s) : s.shown e = s.text := by
  unfold TextBox.shown
  rw [if_neg]
  simp [h.focused, h.editable]

theorem Editing.ctrl {e : BoxEnv φ} {s : TextBox φ} (h : Editing e s) : s.ctrl = s.text := h.sound.ctrl.trans h.shown

theorem Editing.cursor {e : BoxEnv φ} {s : TextBox φ} (h : Editing e s) : s.cursor.1 ≤ s.text.length := by
  have := h.sound.cursor
  rwa [h.shown] at this

theorem Editing.layout {e : BoxEnv φ} {s : TextBox φ} (h : Editing e s) (hne : s.text ≠ []) : s.layout = e.layout false s.text := by
  have := (h.sound.laid (by rw [h.shown]; exact hne)).1
  rw [this]
  simp [TextBox.showsRich, h.focused, h.editable]

theorem Valid.sound {e : BoxEnv φ} {s : TextBox φ} (h : Valid e s) (hf : s.focused = true) : Sound e s := by
  rcases h with h | h
  · exact h
  · have := h.mode.2.2
    rw [hf] at this; cases this

theorem typedInto_length {t : Bytes} {p : Nat} (c : Nat) (hp : p ≤ t.length) :
    (typedInto t p c).length = t.length + (utf8Encode c).length := by
  simp only [typedInto, List.length_append, List.length_take, List.length_drop]; omega

/-- Taking the inserted character out again. -/
theorem typedInto_remove {t : Bytes} {p : Nat} (c : Nat) (hp : p ≤ t.length) :
    (typedInto t p c).take p ++ (typedInto t p c).drop (p + (utf8Encode c).length) = t := by
  have hl : (t.take p).length = p := by rw [List.length_take]; omega
  unfold typedInto
  rw [List.append_assoc, List.take_left' hl, ← List.append_assoc, List.drop_left' (by rw [List.length_append, hl]), List.take_append_drop]

theorem utf8Encode_pos (c : Nat) : 0 < (utf8Encode c).length := by
  unfold utf8Encode
  split <;> (try split) <;> (try split) <;> simp

/-- Typing a character. -/
theorem Editing.type {e : BoxEnv φ} (hg : e.Good) {s : TextBox φ} (h : Editing e s) (c : Nat) (hl : s.text.length + 4 < e.limit) :
    ∃ s', handle e s (.char c) = some s' ∧ Editing e s' ∧ s'.text = typedInto s.text s.cursor.1 c ∧
      s'.cursor = (s.cursor.1 + (utf8Encode c).length, .default) ∧ s'.clip = s.clip := by
  obtain ⟨s', h1, h2⟩ := handle_valid hg (Or.inl h.sound) (i := .char c)
    ⟨Or.inr rfl, (fun hh => by cases hh), (fun hh => by cases hh), hl⟩
  have h3 := h1
  simp only [handle, h.focused, h.editable, Bool.and_self, if_true, insertTyped, removeHighlighted, h.sel] at h3
  have h4 := insertText_fields h3
  have hf : s'.focused = true := by rw [h4]; exact h.focused
  exact ⟨s', h1, ⟨h2.sound hf, hf, by rw [h4]; exact h.editable, by rw [h4]; exact h.sel⟩, by rw [h4]; rfl, by rw [h4], by rw [h4]⟩

/-- Backspace. -/
theorem Editing.back {e : BoxEnv φ} (hg : e.Good) {s : TextBox φ} (h : Editing e s) (ctrl : Bool) :
    ∃ s', handle e s (.backspace ctrl) = some s' ∧ Editing e s' ∧ s'.clip = s.clip := by
  obtain ⟨s', h1, h2⟩ := handle_valid hg (Or.inl h.sound) (i := .backspace ctrl)
    ⟨Or.inr rfl, (fun _ => Or.inl h.editable), (fun hh => by cases hh), by simpa [growth] using h.sound.small⟩
  have h3 := h1
  simp only [handle, h.focused, if_true, key, TextBox.backspace, h.sel, Option.isSome_none, Bool.false_eq_true, if_false] at h3
  split at h3
  · split at h3
    · cases h3
    · rename_i s1 hs1
      have hs : s1 = { s with sel := s1.sel, cursor := s1.cursor, info := s1.info, timer := 0, flash := 0 } ∧ s1.sel = none := by
        cases ctrl with
        | false =>
          simp only [Bool.false_eq_true, if_false, TextBox.prevCharacter] at hs1
          obtain ⟨a, b⟩ := setCursor_fields hs1
          exact ⟨by rw [a], b rfl⟩
        | true =>
          simp only [if_true, TextBox.prevWord] at hs1
          split at hs1
          · cases hs1
          · obtain ⟨a, b⟩ := setCursor_fields hs1
            exact ⟨by rw [a], b rfl⟩
      have h4 := (removeText_fields h3).2
      have e1 : s'.focused = s1.focused := by rw [h4]
      have e2 : s'.editable = s1.editable := by rw [h4]
      have e3 : s'.sel = s1.sel := by rw [h4]
      have e4 : s'.clip = s1.clip := by rw [h4]
      have f1 : s1.focused = s.focused := by rw [hs.1]
      have f2 : s1.editable = s.editable := by rw [hs.1]
      have f4 : s1.clip = s.clip := by rw [hs.1]
      have hf : s'.focused = true := by rw [e1, f1]; exact h.focused
      exact ⟨s', h1, ⟨h2.sound hf, hf, by rw [e2, f2]; exact h.editable, by rw [e3]; exact hs.2⟩, by rw [e4, f4]⟩
  · cases h3
    exact ⟨s, h1, h, rfl⟩

theorem run_append (e : BoxEnv φ) : ∀ (is js : List Input) (s : TextBox φ), run e s (is ++ js) = (run e s is).bind fun s => run e s js
  | [], js, s => rfl
  | i :: is, js, s => by
    simp only [List.cons_append, run]
    cases handle e s i with
    | none => rfl
    | some s' => exact run_append e is js s'

end TextBox

open TextBox

/-- C136: exactly the characters that stand alone are taken back by Backspace. -/
theorem C136_take_back {e : BoxEnv φ} (hg : e.Good) {s : TextBox φ} (h : Editing e s) (c : Nat) (hl : s.text.length + 4 < e.limit) :
    ∃ s', run e s [.char c, .backspace false] = some s' ∧ Editing e s' ∧ (s'.text = s.text ↔ StandsAlone e s.text s.cursor.1 c) ∧
      (StandsAlone e s.text s.cursor.1 c → s'.cursor = (s.cursor.1, .default)) ∧ s'.clip = s.clip := by
  obtain ⟨s1, a1, a2, a3, a4, a5⟩ := h.type hg c hl
  obtain ⟨s2, b1, b2, b3⟩ := a2.back hg false
  obtain ⟨B, hB⟩ := hg.breaks s1.text
  have hpos := utf8Encode_pos c
  have hc := h.cursor
  obtain ⟨q, q1, q2, q3, -, q4, q5, -⟩ := C53_backspace a2.focused a2.sel a2.ctrl hB (by rw [a4]; simp only; omega) false (hg.spaces _) b1
  have q5 := q5 rfl
  rw [a4] at q1 q2 q5
  simp only at q1 q2 q5
  refine ⟨s2, by simp [run, a1, b1], b2, ⟨?_, ?_⟩, ?_, by rw [b3, a5]⟩
  · intro ht
    have hq : q = s.cursor.1 := by
      have := congrArg List.length ht
      rw [q2] at this
      simp only [List.length_append, List.length_take, List.length_drop, a3, typedInto_length c hc] at this
      omega
    intro B' hB'
    rw [a3] at hB
    have hsame : ∀ m, B' m ↔ B m := fun m => ⟨hB'.unique hB m, hB.unique hB' m⟩
    refine ⟨(hsame _).2 (hq ▸ q4), fun m hm hm' hb => ?_⟩
    have := q5 m ((hsame m).1 hb) hm'
    omega
  · intro hs
    obtain ⟨r1, r2⟩ := hs B (a3 ▸ hB)
    have hq : q = s.cursor.1 := by
      have := q5 _ r1 (by omega)
      rcases Nat.lt_or_ge s.cursor.1 q with hlt | hge
      · exact absurd q4 (r2 q hlt q1)
      · omega
    rw [q2, hq, a3]
    exact typedInto_remove c hc
  · intro hs
    obtain ⟨r1, r2⟩ := hs B (a3 ▸ hB)
    have hq : q = s.cursor.1 := by
      have := q5 _ r1 (by omega)
      rcases Nat.lt_or_ge s.cursor.1 q with hlt | hge
      · exact absurd q4 (r2 q hlt q1)
      · omega
    rw [q3, hq]

/-- C136 (partial: characters that do not join the text in front of them): as many Backspaces as characters were typed give the box back as it was. -/
theorem C136_take_back_partial {e : BoxEnv φ} (hg : e.Good) : ∀ (cs : List Nat) {s : TextBox φ}, Editing e s →
    AllStandAlone e s.text s.cursor.1 cs → s.text.length + 4 * cs.length < e.limit →
    ∃ s', run e s (cs.map .char ++ List.replicate cs.length (.backspace false)) = some s' ∧ Editing e s' ∧ s'.text = s.text ∧
      s'.cursor.1 = s.cursor.1 ∧ s'.ctrl = s.ctrl ∧ s'.clip = s.clip ∧ (s.text ≠ [] → s'.layout = s.layout)
  | [], s, h, _, _ => ⟨s, rfl, h, rfl, rfl, rfl, rfl, fun _ => rfl⟩
  | c :: cs, s, h, hc, hl => by
    rw [List.length_cons] at hl
    obtain ⟨s1, a1, a2, a3, a4, a5⟩ := h.type hg c (by omega)
    have hlen := typedInto_length c h.cursor
    have hle := utf8Encode_length c
    have hpos := utf8Encode_pos c
    obtain ⟨s2, b1, b2, b3, b4, -, b6, -⟩ := C136_take_back_partial hg cs a2 (by rw [a3, a4]; exact hc.2) (by rw [a3, hlen]; omega)
    obtain ⟨s3, d1, d2, d3⟩ := b2.back hg false
    obtain ⟨B, hB⟩ := hg.breaks s2.text
    obtain ⟨q, q1, q2, q3, -, q4, q5, -⟩ := C53_backspace b2.focused b2.sel b2.ctrl hB (by rw [b4, a4]; simp only; omega) false (hg.spaces _) d1
    have q5 := q5 rfl
    rw [b4, a4] at q1 q2 q5
    simp only at q1 q2 q5
    obtain ⟨r1, r2⟩ := hc.1 B (by rw [b3, a3] at hB; exact hB)
    have hq : q = s.cursor.1 := by
      have := q5 _ r1 (by omega)
      rcases Nat.lt_or_ge s.cursor.1 q with hlt | hge
      · exact absurd q4 (r2 q hlt q1)
      · omega
    have ht : s3.text = s.text := by
      rw [q2, hq, b3, a3]
      exact typedInto_remove c h.cursor
    refine ⟨s3, ?_, d2, ht, by rw [q3, hq], by rw [d2.ctrl, h.ctrl, ht], by rw [d3, b6, a5], fun hne => ?_⟩
    · rw [List.map_cons, List.length_cons, List.replicate_succ', List.cons_append, run, a1]
      simp only
      rw [← List.append_assoc, run_append, b1, Option.bind_some, run, d1]
      rfl
    · rw [d2.layout (by rw [ht]; exact hne), h.layout hne, ht]

/-- Typing a sequence of characters. -/
theorem TextBox.Editing.typeAll {e : BoxEnv φ} (hg : e.Good) : ∀ (cs : List Nat) {s : TextBox φ}, Editing e s → s.text.length + 4 * cs.length < e.limit →
    ∃ s', run e s (cs.map .char) = some s' ∧ Editing e s' ∧
      s'.text = s.text.take s.cursor.1 ++ cs.flatMap utf8Encode ++ s.text.drop s.cursor.1 ∧
      s'.cursor.1 = s.cursor.1 + (cs.flatMap utf8Encode).length ∧ s'.clip = s.clip
  | [], s, h, _ => ⟨s, rfl, h, by simp, by simp, rfl⟩
  | c :: cs, s, h, hl => by
    rw [List.length_cons] at hl
    obtain ⟨s1, a1, a2, a3, a4, a5⟩ := h.type hg c (by omega)
    have hc := h.cursor
    have hlen := typedInto_length c hc
    have hle := utf8Encode_length c
    obtain ⟨s2, b1, b2, b3, b4, b5⟩ := typeAll hg cs a2 (by rw [a3, hlen]; omega)
    have hl : (s.text.take s.cursor.1).length = s.cursor.1 := by rw [List.length_take]; omega
    refine ⟨s2, by rw [List.map_cons, run, a1]; exact b1, b2, ?_, ?_, by rw [b5, a5]⟩
    · rw [b3, a3, a4]
      unfold typedInto
      simp only
      rw [List.take_left' (by rw [List.length_append, hl]), List.drop_left' (by rw [List.length_append, hl])]
      simp
    · rw [b4, a4]; simp [Nat.add_assoc]

/-- C136: typing again what Backspace, with or without Ctrl, removed gives the text and the cursor back. -/
theorem C136_retype {e : BoxEnv φ} (hg : e.Good) {s : TextBox φ} (h : Editing e s) (hp : 0 < s.cursor.1) (ctrl : Bool) (cs : List Nat)
    (hl : s.text.length + 4 * cs.length < e.limit)
    (hcs : ∀ s1, handle e s (.backspace ctrl) = some s1 → cs.flatMap utf8Encode = (s.text.drop s1.cursor.1).take (s.cursor.1 - s1.cursor.1)) :
    ∃ s', run e s (.backspace ctrl :: cs.map .char) = some s' ∧ Editing e s' ∧ s'.text = s.text ∧ s'.cursor.1 = s.cursor.1 ∧ s'.layout = s.layout := by
  obtain ⟨s1, a1, a2, a3⟩ := h.back hg ctrl
  obtain ⟨B, hB⟩ := hg.breaks s.text
  obtain ⟨q, q1, q2, q3, -⟩ := C53_backspace h.focused h.sel h.ctrl hB hp ctrl (hg.spaces _) a1
  have hc := h.cursor
  have hcs := hcs s1 a1
  rw [q3] at hcs
  simp only at hcs
  have hl1 : (s.text.take q).length = q := by rw [List.length_take]; omega
  obtain ⟨s2, b1, b2, b3, b4, -⟩ := a2.typeAll hg cs (by rw [q2]; simp only [List.length_append, List.length_take, List.length_drop]; omega)
  have ht : s2.text = s.text := by
    rw [b3, q2, q3, hcs]
    simp only
    rw [List.take_left' hl1, List.drop_left' hl1]
    have : s.text.drop s.cursor.1 = (s.text.drop q).drop (s.cursor.1 - q) := by rw [List.drop_drop]; congr 1; omega
    rw [this, List.append_assoc, List.take_append_drop, List.take_append_drop]
  refine ⟨s2, by rw [run, a1]; exact b1, b2, ht, ?_, ?_⟩
  · rw [b4, q3, hcs]
    simp only [List.length_take, List.length_drop]
    omega
  · have hne : s.text ≠ [] := by intro h0; rw [h0] at hc; simp at hc; omega
    rw [b2.layout (by rw [ht]; exact hne), h.layout hne, ht]

/-- C136: Backspace is the same as selecting backwards and removing the selection, and Delete as selecting forwards and removing it: the same box
results, in every environment. -/
theorem C136_select_remove {e : BoxEnv φ} {s : TextBox φ} {B : Nat → Prop} (hfoc : s.focused = true) (hsel : s.sel = none)
    (hshown : s.ctrl = s.text) (hb : Breaks (e.breaks s.text) B) (hsz : (e.breaks s.text).size = s.text.length)
    (hsp : ∀ c, isLineBreak c = true → (e.breaks s.text).space c = true) (ctrl ctrl' : Bool) :
    (0 < s.cursor.1 → run e s [.left true ctrl, .backspace ctrl'] = handle e s (.backspace ctrl) ∧
      run e s [.left true ctrl, .delete ctrl'] = handle e s (.backspace ctrl)) ∧
    (s.cursor.1 < s.text.length → run e s [.right true ctrl, .backspace ctrl'] = handle e s (.delete ctrl) ∧
      run e s [.right true ctrl, .delete ctrl'] = handle e s (.delete ctrl)) := by
  constructor
  · intro hp
    have hleft : ∃ q : Cursor, q.1 < s.cursor.1 ∧ (if ctrl then prevWord e s true else prevCharacter e s true) = setCursor e s q true ∧
        (if ctrl then prevWord e s false else prevCharacter e s false) = setCursor e s q false := by
      cases ctrl with
      | false =>
        rcases C50_prev hb s.cursor with ⟨q, hq, hlt, hmax, he⟩ | ⟨h0, -⟩
        · exact ⟨(q, .default), hlt, by simp [prevCharacter, hshown, he], by simp [prevCharacter, hshown, he]⟩
        · omega
      | true =>
        obtain ⟨q, hq, hw⟩ := C51_prev_word hb hsp s.cursor
        refine ⟨q, ?_, by simp [prevWord, hshown, hq], by simp [prevWord, hshown, hq]⟩
        rcases hw with ⟨hs, hd, hm⟩ | ⟨hno, ⟨rfl, h0⟩ | ⟨rfl, h0⟩⟩
        · exact hs.2.1
        · exact h0
        · omega
    obtain ⟨q, hq, e1, e2⟩ := hleft
    have hne : ¬ (s.cursor = q) := by intro h0; rw [← h0] at hq; omega
    simp only [run, handle, hfoc, if_true, key, e1, TextBox.backspace, TextBox.delete, hsel, Option.isSome_none, Bool.false_eq_true, if_false, gt_iff_lt, hp, e2]
    unfold setCursor
    simp only [hsel, if_true, Bool.false_eq_true, if_false]
    cases s.layout.cursorPixelPos e.width e.align q.1 q.2 with
    | none => exact ⟨rfl, rfl⟩
    | some info =>
      simp only [hfoc, if_true, Option.isSome_some, removeHighlighted, hne, if_false, gt_iff_lt, hq, hsel]
      constructor <;> (split <;> (rename_i hh; exact hh.symm))
  · intro hp
    have hright : ∃ q : Cursor, s.cursor.1 < q.1 ∧ (if ctrl then nextWord e s true else nextCharacter e s true) = setCursor e s q true ∧
        (if ctrl then nextWord e s false else nextCharacter e s false) = setCursor e s q false := by
      cases ctrl with
      | false =>
        rcases C50_next hb s.cursor with ⟨q, hq, he⟩ | ⟨h0, -⟩
        · exact ⟨(q, .default), hq.2.1, by simp [nextCharacter, hshown, he], by simp [nextCharacter, hshown, he]⟩
        · omega
      | true =>
        obtain ⟨q, hq, hw⟩ := C51_next_word hb (show s.cursor.1 ≤ _ by omega)
        refine ⟨q, ?_, by simp [nextWord, hshown, hq], by simp [nextWord, hshown, hq]⟩
        rcases hw with ⟨hs, hd, hm⟩ | ⟨hno, ⟨rfl, h0⟩ | ⟨rfl, h0⟩⟩
        · exact hs.2.1
        · exact h0
        · omega
    obtain ⟨q, hq, e1, e2⟩ := hright
    have hne : ¬ (s.cursor = q) := by intro h0; rw [← h0] at hq; omega
    have hng : ¬ (q.1 < s.cursor.1) := by omega
    simp only [run, handle, hfoc, if_true, key, e1, TextBox.backspace, TextBox.delete, hsel, Option.isSome_none, Bool.false_eq_true, if_false, gt_iff_lt, hp, e2]
    unfold setCursor
    simp only [hsel, if_true, Bool.false_eq_true, if_false]
    cases s.layout.cursorPixelPos e.width e.align q.1 q.2 with
    | none => exact ⟨rfl, rfl⟩
    | some info =>
      simp only [hfoc, if_true, Option.isSome_some, removeHighlighted, hne, if_false, gt_iff_lt, hng, hsel]
      constructor <;> (split <;> (rename_i hh; exact hh.symm))

/-! ### Concrete cases -/

/-- A position behind which a character starts that is no U+0301. -/
def marksBoundary (t : Bytes) (k : Nat) : Bool :=
  k == 0 || k == t.length || (k < t.length && !(0x80 ≤ t.getD k 0 && t.getD k 0 < 0xC0) && t.getD k 0 != 0xCC)

/-- The break iterator for text in which U+0301 is the only character that joins the one in front of it. -/
def marksEnv (t : Bytes) : BreakEnv where
  size := t.length
  follow k := ((List.range (t.length + 1)).filter fun m => decide (k < m) && marksBoundary t m).head?
  precede k := ((List.range (t.length + 1)).filter fun m => decide (m < k) && marksBoundary t m).getLast?
  char k := (asciiEnv (t.map UInt8.toNat)).char k
  space c := (asciiEnv (t.map UInt8.toNat)).space c

theorem marksEnv_breaks (t : Bytes) : Breaks (marksEnv t) (fun k => k ≤ t.length ∧ marksBoundary t k = true) where
  first := ⟨Nat.zero_le _, by simp [marksBoundary]⟩
  last := ⟨Nat.le_refl _, by simp [marksBoundary, marksEnv]⟩
  inside := fun _ h => h.1
  follow_next := by
    intro k n hf
    simp only [marksEnv] at hf
    obtain ⟨l, hl⟩ := List.head?_eq_some_iff.1 hf
    have hmem : ∀ m, m ∈ n :: l ↔ m ≤ t.length ∧ k < m ∧ marksBoundary t m = true := by
      intro m; rw [← hl]; simp [List.mem_filter, Nat.lt_succ_iff]
    have hs : (n :: l).Pairwise (· < ·) := by rw [← hl]; exact List.pairwise_lt_range.filter _
    obtain ⟨a, b, c⟩ := (hmem n).1 (by simp)
    refine ⟨b, ⟨a, c⟩, fun m hm hk => ?_⟩
    rcases List.mem_cons.1 ((hmem m).2 ⟨hm.1, hk, hm.2⟩) with rfl | h
    · exact Nat.le_refl _
    · exact Nat.le_of_lt (List.rel_of_pairwise_cons hs h)
  follow_done := by
    intro k m hf hlt hm
    simp only [marksEnv, List.head?_eq_none_iff] at hf
    have : m ∈ ([] : List Nat) := by rw [← hf]; simp [List.mem_filter, Nat.lt_succ_iff, hm.1, hm.2, hlt]
    cases this
  precede_prev := by
    intro k n hf
    simp only [marksEnv] at hf
    obtain ⟨l, hl⟩ := List.getLast?_eq_some_iff.1 hf
    have hmem : ∀ m, m ∈ l ++ [n] ↔ m ≤ t.length ∧ m < k ∧ marksBoundary t m = true := by
      intro m; rw [← hl]; simp [List.mem_filter, Nat.lt_succ_iff]
    have hs : (l ++ [n]).Pairwise (· < ·) := by rw [← hl]; exact List.pairwise_lt_range.filter _
    obtain ⟨a, b, c⟩ := (hmem n).1 (by simp)
    refine ⟨b, ⟨a, c⟩, fun m hm hk => ?_⟩
    rcases List.mem_append.1 ((hmem m).2 ⟨hm.1, hk, hm.2⟩) with h | h
    · exact Nat.le_of_lt ((List.pairwise_append.1 hs).2.2 m h n (by simp))
    · exact Nat.le_of_eq (List.mem_singleton.1 h)
  precede_done := by
    intro k m hf hlt hm
    simp only [marksEnv, List.getLast?_eq_none_iff] at hf
    have : m ∈ ([] : List Nat) := by rw [← hf]; simp [List.mem_filter, Nat.lt_succ_iff, hm.1, hm.2, hlt]
    cases this
  char := by
    intro k hk
    refine (asciiEnv_breaks (t.map UInt8.toNat)).char k ?_
    simpa [marksEnv, asciiEnv] using hk

/-- As `monoEnv`, with whole characters and accents. -/
def marksBox : BoxEnv Nat := { monoEnv with breaks := marksEnv }

theorem marksBox_good : marksBox.Good where
  limit := monoEnv_good.limit
  size := fun _ => rfl
  breaks := fun t => ⟨_, marksEnv_breaks t⟩
  spaces := fun t => asciiEnv_space (t.map UInt8.toNat)
  layout := monoEnv_good.layout
  content := monoEnv_good.content
  rich := monoEnv_good.rich

/-- "aé" and Backspace, with é as one character; "ae", U+0301 and Backspace; the same and e and U+0301 again; a word removed and typed again. -/
example : (run marksBox {} [.focus, .char 97, .char 233, .backspace false]).map (fun s => (s.text, s.cursor.1)) = some (b!"a", 1) ∧
    (run marksBox {} [.focus, .char 97, .char 101, .char 769, .backspace false]).map (fun s => (s.text, s.cursor.1)) = some (b!"a", 1) ∧
    (run marksBox {} [.focus, .char 97, .char 101, .char 769, .backspace false, .char 101, .char 769]).map (fun s => (s.text, s.cursor.1)) =
      some ([97, 101, 0xCC, 0x81], 4) ∧
    (run marksBox {} [.focus, .char 97, .char 32, .char 98, .char 233, .backspace true, .char 98, .char 233]).map (fun s => (s.text, s.cursor.1)) =
      some ([97, 32, 98, 0xC3, 0xA9], 5) := by decide +kernel

theorem marks_editing : Editing marksBox { focused := true } where
  sound := ⟨(fun h => by cases h), rfl, by decide, Nat.le_refl _, (fun c hc => by cases hc), fun h => absurd rfl h⟩
  focused := rfl
  editable := rfl
  sel := rfl

theorem marks_stands {t : Bytes} {p c : Nat} (h : p ≤ (typedInto t p c).length ∧ marksBoundary (typedInto t p c) p = true ∧
    ∀ i < (utf8Encode c).length, 0 < i → marksBoundary (typedInto t p c) (p + i) = false) : StandsAlone marksBox t p c := by
  intro B hB
  refine ⟨(marksEnv_breaks _).unique hB _ ⟨h.1, h.2.1⟩, fun m h1 h2 hm => ?_⟩
  have := (hB.unique (marksEnv_breaks _) m hm).2
  have h3 := h.2.2 (m - p) (by omega) (by omega)
  rw [show p + (m - p) = m by omega, this] at h3
  cases h3

/-- "aéb" typed into an empty box and taken back. -/
example : ∃ s', run marksBox { focused := true } ([97, 233, 98].map .char ++ List.replicate 3 (.backspace false)) = some s' ∧ s'.text = [] := by
  obtain ⟨s', h1, -, h2, -⟩ := C136_take_back_partial marksBox_good [97, 233, 98] marks_editing
    ⟨marks_stands (by decide +kernel), marks_stands (by decide +kernel), marks_stands (by decide +kernel), trivial⟩ (by decide)
  exact ⟨s', h1, h2⟩

/-- C136 is false as stated: an accent typed behind a letter joins it, and Backspace takes both away. -/
theorem C136_accent_violated : ∃ (e : BoxEnv Nat), e.Good ∧
    (run e {} [.focus, .char 101]).map (·.text) = some b!"e" ∧
    (run e {} [.focus, .char 101, .char 769, .backspace false]).map (·.text) = some [] :=
  ⟨marksBox, marksBox_good, by decide +kernel, by decide +kernel⟩

/-- C136: selecting a character with the arrow keys and going back leaves a selection of nothing.  Backspace then removes nothing, and of two
characters typed the first is lost. -/
theorem C136_collapsed_violated : ∃ (e : BoxEnv Nat), e.Good ∧
    (run e {} [.focus, .char 97, .char 98, .left true false, .right true false, .backspace false]).map (·.text) = some b!"ab" ∧
    (run e {} [.focus, .char 97, .char 98, .left true false, .right true false, .char 120, .char 121]).map (·.text) = some b!"aby" :=
  ⟨marksBox, marksBox_good, by decide +kernel, by decide +kernel⟩

end RichText
