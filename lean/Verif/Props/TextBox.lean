import Verif.Spec.TextBox
import Verif.Proof.TextBox
/-!
C52-C54: the text box of the sample.
-/
namespace RichText
variable {φ : Type _}
namespace TextBox

/-! ### The functions -/

theorem recalc_fields {e : BoxEnv φ} {s s' : TextBox φ} (h : recalc e s = some s') :
    s' = { s with ctrl := s'.ctrl, layout := s'.layout, info := s'.info } := by
  unfold recalc at h
  simp only at h
  generalize (if s.showsRich = true then e.content s.text else s.text) = text at h
  by_cases ht : text = []
  · rw [if_pos ht] at h
    cases h; rfl
  · rw [if_neg ht] at h
    generalize (e.layout s.showsRich s.text).cursorPixelPos e.width e.align s.cursor.1 s.cursor.2 = o at h
    cases o with
    | none => cases h
    | some info => cases h; rfl

theorem setCursor_fields {e : BoxEnv φ} {s s' : TextBox φ} {pos : Cursor} {b : Bool} (h : setCursor e s pos b = some s') :
    s' = { s with sel := s'.sel, cursor := pos, info := s'.info, timer := 0, flash := 0 } ∧ (b = false → s'.sel = none) := by
  unfold setCursor at h
  simp only at h
  split at h
  · cases h
  · cases h
    refine ⟨rfl, ?_⟩
    intro hb; subst hb; rfl

theorem setText_fields {e : BoxEnv φ} {s s' : TextBox φ} {t : Bytes} (h : setText e s t = some s') :
    s' = { s with text := t, ctrl := s'.ctrl, layout := s'.layout, info := s'.info } := by
  have := recalc_fields h
  exact this

theorem removeText_fields {e : BoxEnv φ} {s s' : TextBox φ} {a b : Nat} (h : removeText e s a b = some s') :
    b ≤ s.text.length ∧ s' = { s with text := s.text.take a ++ s.text.drop b, ctrl := s'.ctrl, layout := s'.layout, info := s'.info } := by
  unfold removeText at h
  split at h
  · rename_i hb
    exact ⟨hb, setText_fields h⟩
  · cases h

theorem insertText_fields {e : BoxEnv φ} {s s' : TextBox φ} {ins : Bytes} {a : Nat} (h : insertText e s ins a = some s') :
    s' = { s with cursor := (s.cursor.1 + ins.length, .default), text := s.text.take a ++ ins ++ s.text.drop a, ctrl := s'.ctrl,
                  layout := s'.layout, info := s'.info } := by
  unfold insertText at h
  simp only at h
  split at h
  · exact setText_fields h
  · rename_i hlt
    have := setText_fields h
    rw [this]
    rw [List.take_of_length_le (by omega), List.drop_of_length_le (by omega), List.append_nil]

theorem copy_fields {s s' : TextBox φ} (h : TextBox.copy s = some s') : s' = { s with clip := s'.clip } := by
  unfold TextBox.copy at h
  split at h
  · cases h; rfl
  · simp only at h
    split at h
    · cases h; rfl
    · split at h
      · cases h; rfl
      · cases h

theorem copy_clip {s s' : TextBox φ} {c : Cursor} (hsel : s.sel = some c) (hne : c.1 ≠ s.cursor.1) (h : TextBox.copy s = some s') :
    s'.clip = some (((s.text.drop (min c.1 s.cursor.1)).take (max c.1 s.cursor.1 - min c.1 s.cursor.1)).takeWhile (· ≠ 0)) := by
  unfold TextBox.copy at h
  split at h
  · rename_i hs; rw [hsel] at hs; cases hs
  · rename_i c' hs
    rw [hsel] at hs; cases hs
    simp only [hne, if_false] at h
    split at h
    · cases h; rfl
    · cases h

/-- `remove_highlighted_text` removes the selection. -/
theorem removeHighlighted_fields {e : BoxEnv φ} {s s' : TextBox φ} (hcol : s.sel ≠ some s.cursor)
    (h : removeHighlighted e s = some s') :
    Replaced s s' [] ∧ s'.clip = s.clip ∧ s'.editable = s.editable ∧ s'.multiLine = s.multiLine ∧ s'.focused = s.focused := by
  unfold removeHighlighted at h
  split at h
  · rename_i hs
    cases h
    refine ⟨⟨s.cursor.1, s.cursor.1, fun _ => ⟨rfl, rfl⟩, fun c hc => ?_, ?_, rfl, hs⟩, rfl, rfl, rfl, rfl⟩
    · rw [hs] at hc; cases hc
    · rw [List.append_nil, List.take_append_drop]
  · rename_i start hs
    rw [if_neg (fun e => hcol (by rw [hs, e]))] at h
    split at h
    · rename_i hgt
      obtain ⟨h1, h2⟩ := removeText_fields h
      rw [h2]
      refine ⟨⟨s.cursor.1, start.1, fun hn => ?_, fun c hc => ?_, ?_, rfl, rfl⟩, rfl, rfl, rfl, rfl⟩
      · rw [hs] at hn; cases hn
      · rw [hs] at hc; cases hc; omega
      · rw [List.append_nil]
    · rename_i hgt
      obtain ⟨h1, h2⟩ := removeText_fields h
      rw [h2]
      refine ⟨⟨start.1, s.cursor.1, fun hn => ?_, fun c hc => ?_, ?_, rfl, rfl⟩, rfl, rfl, rfl, rfl⟩
      · rw [hs] at hn; cases hn
      · rw [hs] at hc; cases hc; omega
      · rw [List.append_nil]

/-- Removing the selection, then inserting at the cursor. -/
theorem replaced_insert {e : BoxEnv φ} {s s1 s2 : TextBox φ} {ins : Bytes} (hc : s.cursor.1 ≤ s.text.length)
    (hsel : ∀ c, s.sel = some c → c.1 ≤ s.text.length) (h1 : Replaced s s1 [])
    (h2 : insertText e s1 ins s1.cursor.1 = some s2) : Replaced s s2 ins := by
  obtain ⟨a, b, ha, hb, ht, hcur, hs⟩ := h1
  have hf := insertText_fields h2
  have hal : a ≤ s.text.length := by
    cases hse : s.sel with
    | none => rw [(ha hse).1]; exact hc
    | some c => rw [(hb c hse).1]; omega
  simp only [List.length_nil, Nat.add_zero] at hcur
  refine ⟨a, b, ha, hb, ?_, ?_, ?_⟩
  · rw [hf]
    simp only [ht, hcur, List.append_nil]
    have hl : (s.text.take a).length = a := by rw [List.length_take]; omega
    rw [List.take_append_of_le_length (by omega), List.take_of_length_le (by omega), List.drop_append_of_le_length (by omega),
      List.drop_of_length_le (by omega), List.nil_append]
  · rw [hf]; simp only [hcur]
  · rw [hf]; exact hs

theorem insertTyped_replaced {e : BoxEnv φ} {s s' : TextBox φ} {c : Nat} (hcol : s.sel ≠ some s.cursor) (hc : s.cursor.1 ≤ s.text.length)
    (hsel : ∀ c, s.sel = some c → c.1 ≤ s.text.length) (h : insertTyped e s c = some s') : Replaced s s' (utf8Encode c) := by
  unfold insertTyped at h
  split at h
  · cases h
  · rename_i s1 h1
    exact replaced_insert hc hsel (removeHighlighted_fields hcol h1).1 h

end TextBox

open TextBox

/-! ## C53: editing is splicing -/

/-- C53 (partial: the selection is not collapsed onto the cursor).  A typed
character, in every state and environment, replaces exactly the selected bytes, or
is inserted at the cursor; the cursor is behind it. -/
theorem C53_type_partial {e : BoxEnv φ} {s s' : TextBox φ} {c : Nat} (hfoc : s.focused = true) (hed : s.editable = true)
    (hcol : s.sel ≠ some s.cursor) (hc : s.cursor.1 ≤ s.text.length) (hsel : ∀ c, s.sel = some c → c.1 ≤ s.text.length)
    (h : handle e s (.char c) = some s') : Replaced s s' (utf8Encode c) := by
  unfold handle at h
  simp only [hfoc, hed, Bool.and_self, if_true] at h
  exact insertTyped_replaced hcol hc hsel h

/-- C53 (partial, as before): Tab. -/
theorem C53_tab_partial {e : BoxEnv φ} {s s' : TextBox φ} (hfoc : s.focused = true)
    (hcol : s.sel ≠ some s.cursor) (hc : s.cursor.1 ≤ s.text.length) (hsel : ∀ c, s.sel = some c → c.1 ≤ s.text.length)
    (h : handle e s .tab = some s') : Replaced s s' [9] := by
  unfold handle at h
  simp only [hfoc, if_true] at h
  exact insertTyped_replaced hcol hc hsel h

/-- C53 (partial, as before): Enter, in a box of several lines. -/
theorem C53_enter_partial {e : BoxEnv φ} {s s' : TextBox φ} (hfoc : s.focused = true) (hml : s.multiLine = true)
    (hcol : s.sel ≠ some s.cursor) (hc : s.cursor.1 ≤ s.text.length) (hsel : ∀ c, s.sel = some c → c.1 ≤ s.text.length)
    (h : handle e s .enter = some s') : Replaced s s' [10] := by
  unfold handle at h
  simp only [hfoc, if_true, key, TextBox.enter, hml] at h
  split at h
  · cases h
  · rename_i s1 h1
    have hr := (removeHighlighted_fields hcol h1).1
    have hs1 : s1.sel = none := by
      obtain ⟨a, b, -, -, -, -, hs⟩ := hr
      exact hs
    unfold insertTyped removeHighlighted at h
    rw [hs1] at h
    exact replaced_insert hc hsel hr h

/-- C53 (partial, as before): pasting. -/
theorem C53_paste_partial {e : BoxEnv φ} {s s' : TextBox φ} {t : Bytes} (hfoc : s.focused = true) (hed : s.editable = true)
    (hclip : s.clip = some t)
    (hcol : s.sel ≠ some s.cursor) (hc : s.cursor.1 ≤ s.text.length) (hsel : ∀ c, s.sel = some c → c.1 ≤ s.text.length)
    (h : handle e s .paste = some s') : Replaced s s' t := by
  unfold handle at h
  simp only [hfoc, if_true, key, TextBox.paste, hed, Bool.not_true, Bool.false_eq_true, if_false] at h
  split at h
  · cases h
  · rename_i s1 h1
    have hr := removeHighlighted_fields hcol h1
    rw [hr.2.1, hclip] at h
    exact replaced_insert hc hsel hr.1 h

/-- C53 (partial, as before): Backspace and Delete with a selection, and cutting,
remove exactly the selected bytes. -/
theorem C53_remove_selection_partial {e : BoxEnv φ} {s s' : TextBox φ} {c : Cursor} {i : Input} (hfoc : s.focused = true) (hsel : s.sel = some c)
    (hcol : c ≠ s.cursor) (hi : (∃ b, i = .backspace b) ∨ (∃ b, i = .delete b) ∨ (i = .cut ∧ s.editable = true))
    (h : handle e s i = some s') : Replaced s s' [] := by
  have hcol' : s.sel ≠ some s.cursor := by rw [hsel]; intro he; exact hcol (Option.some.inj he)
  rcases hi with ⟨b, rfl⟩ | ⟨b, rfl⟩ | ⟨rfl, hed⟩
  · unfold handle at h
    simp only [hfoc, if_true, key, TextBox.backspace, hsel, Option.isSome_some] at h
    exact (removeHighlighted_fields hcol' h).1
  · unfold handle at h
    simp only [hfoc, if_true, key, TextBox.delete, hsel, Option.isSome_some] at h
    exact (removeHighlighted_fields hcol' h).1
  · unfold handle at h
    simp only [hfoc, if_true, key, TextBox.cut, hed, Bool.not_true, Bool.false_eq_true, if_false] at h
    split at h
    · cases h
    · rename_i s1 h1
      have h2 := copy_fields h1
      have h3 : s1.sel ≠ some s1.cursor := by rw [h2]; exact hcol'
      have h4 := (removeHighlighted_fields h3 h).1
      rw [h2] at h4
      exact h4

/-- C53: Backspace without a selection removes the grapheme before the cursor, or
with Ctrl back to where `prev_word` stops (C51). -/
theorem C53_backspace {e : BoxEnv φ} {s s' : TextBox φ} {B : Nat → Prop} (hfoc : s.focused = true) (hsel : s.sel = none)
    (hshown : s.ctrl = s.text) (hb : Breaks (e.breaks s.text) B) (hp : 0 < s.cursor.1) (ctrl : Bool)
    (hsp : ∀ c, isLineBreak c = true → (e.breaks s.text).space c = true)
    (h : handle e s (.backspace ctrl) = some s') :
    ∃ q, q < s.cursor.1 ∧ s'.text = s.text.take q ++ s.text.drop s.cursor.1 ∧ s'.cursor = (q, .default) ∧ s'.sel = none ∧ B q ∧
      (ctrl = false → ∀ m, B m → m < s.cursor.1 → m ≤ q) ∧
      (ctrl = true → (∀ m, WordStart (e.breaks s.text) B s.cursor.1 m → m ≤ q) ∧ (WordStart (e.breaks s.text) B s.cursor.1 q ∨ q = 0)) := by
  unfold handle at h
  simp only [hfoc, if_true, key, TextBox.backspace, hsel, Option.isSome_none, Bool.false_eq_true, if_false,
    gt_iff_lt, hp] at h
  split at h
  · cases h
  · rename_i s1 h1
    obtain ⟨h2, h3⟩ := removeText_fields h
    cases ctrl with
    | false =>
      simp only [Bool.false_eq_true, if_false, TextBox.prevCharacter, hshown] at h1
      obtain ⟨h4, h5⟩ := setCursor_fields h1
      rcases C50_prev hb s.cursor with ⟨q, hq, hlt, hmax, he⟩ | ⟨h0, -⟩
      · have hcur : s1.cursor = (q, .default) := by rw [h4, ← he]
        have htext : s1.text = s.text := by rw [h4]
        refine ⟨q, hlt, ?_, ?_, ?_, hq, fun _ => hmax, fun hh => by cases hh⟩
        · rw [h3]; simp only [hcur, htext]
        · rw [h3]; exact hcur
        · rw [h3]; exact h5 rfl
      · omega
    | true =>
      simp only [if_true, TextBox.prevWord, hshown] at h1
      obtain ⟨q, hq, hw⟩ := C51_prev_word hb hsp s.cursor
      rw [hq] at h1
      obtain ⟨h4, h5⟩ := setCursor_fields h1
      have hcur : s1.cursor = q := by rw [h4]
      have htext : s1.text = s.text := by rw [h4]
      have key : ∀ (hq1 : q.1 < s.cursor.1) (hq2 : q.2 = .default) (hB : B q.1)
          (hm : ∀ m, WordStart (e.breaks s.text) B s.cursor.1 m → m ≤ q.1)
          (hs : WordStart (e.breaks s.text) B s.cursor.1 q.1 ∨ q.1 = 0), ∃ q, q < s.cursor.1 ∧ s'.text = s.text.take q ++ s.text.drop s.cursor.1 ∧ s'.cursor = (q, .default) ∧ s'.sel = none ∧ B q ∧
            (true = false → ∀ m, B m → m < s.cursor.1 → m ≤ q) ∧
            (true = true → (∀ m, WordStart (e.breaks s.text) B s.cursor.1 m → m ≤ q) ∧ (WordStart (e.breaks s.text) B s.cursor.1 q ∨ q = 0)) := by
        intro hq1 hq2 hB hm hs
        refine ⟨q.1, hq1, ?_, ?_, ?_, hB, (fun hh => by cases hh), fun _ => ⟨hm, hs⟩⟩
        · rw [h3]; simp only [hcur, htext]
        · rw [h3]; simp only [hcur]; rw [← hq2]
        · rw [h3]; exact h5 rfl
      rcases hw with ⟨hs, hd, hm⟩ | ⟨hno, ⟨rfl, h0⟩ | ⟨rfl, h0⟩⟩
      · exact key hs.2.1 hd hs.1 hm (Or.inl hs)
      · exact key hp rfl hb.first (fun m hm => absurd hm (hno m)) (Or.inr rfl)
      · omega

/-- C53: Delete without a selection removes the grapheme behind the cursor, or with
Ctrl up to where `next_word` stops (C51). -/
theorem C53_delete {e : BoxEnv φ} {s s' : TextBox φ} {B : Nat → Prop} (hfoc : s.focused = true) (hsel : s.sel = none)
    (hshown : s.ctrl = s.text) (hb : Breaks (e.breaks s.text) B) (hsz : (e.breaks s.text).size = s.text.length)
    (hp : s.cursor.1 < s.text.length) (ctrl : Bool)
    (h : handle e s (.delete ctrl) = some s') :
    ∃ q, s.cursor.1 < q ∧ q ≤ s.text.length ∧ s'.text = s.text.take s.cursor.1 ++ s.text.drop q ∧ s'.cursor = s.cursor ∧ s'.sel = none ∧ B q ∧
      (ctrl = false → ∀ m, B m → s.cursor.1 < m → q ≤ m) ∧
      (ctrl = true → (∀ m, WordStop (e.breaks s.text) B s.cursor.1 m → q ≤ m) ∧
        (WordStop (e.breaks s.text) B s.cursor.1 q ∨ q = s.text.length)) := by
  unfold handle at h
  simp only [hfoc, if_true, key, TextBox.delete, hsel, Option.isSome_none, Bool.false_eq_true, if_false, hp] at h
  split at h
  · cases h
  · rename_i s1 h1
    obtain ⟨h2, h3⟩ := removeText_fields h
    cases ctrl with
    | false =>
      simp only [Bool.false_eq_true, if_false, TextBox.nextCharacter, hshown] at h1
      obtain ⟨h4, h5⟩ := setCursor_fields h1
      rcases C50_next hb s.cursor with ⟨q, hq, he⟩ | ⟨h0, -⟩
      · have hcur : s1.cursor = (q, .default) := by rw [h4, ← he]
        have htext : s1.text = s.text := by rw [h4]
        refine ⟨q, hq.2.1, ?_, ?_, ?_, ?_, hq.1, fun _ => hq.2.2, fun hh => by cases hh⟩
        · rw [← hsz]; exact hb.inside _ hq.1
        · rw [h3]; simp only [hcur, htext]
        · rw [h3]
        · rw [h3]; exact h5 rfl
      · omega
    | true =>
      simp only [if_true, TextBox.nextWord, hshown] at h1
      obtain ⟨q, hq, hw⟩ := C51_next_word hb (show s.cursor.1 ≤ _ by omega)
      rw [hq] at h1
      obtain ⟨h4, h5⟩ := setCursor_fields h1
      have hcur : s1.cursor = q := by rw [h4]
      have htext : s1.text = s.text := by rw [h4]
      have hrest : s'.text = s.text.take s.cursor.1 ++ s.text.drop q.1 ∧ s'.cursor = s.cursor ∧ s'.sel = none := by
        refine ⟨?_, ?_, ?_⟩
        · rw [h3]; simp only [hcur, htext]
        · rw [h3]
        · rw [h3]; exact h5 rfl
      rcases hw with ⟨hs, hd, hm⟩ | ⟨hno, ⟨rfl, h0⟩ | ⟨rfl, h0⟩⟩
      · exact ⟨q.1, hs.2.1, by rw [← hsz]; exact hb.inside _ hs.1, hrest.1, hrest.2.1, hrest.2.2, hs.1, (fun hh => by cases hh), fun _ => ⟨hm, Or.inl hs⟩⟩
      · exact ⟨_, h0, Nat.le_of_eq hsz, hrest.1, hrest.2.1, hrest.2.2, hb.last, (fun hh => by cases hh),
          fun _ => ⟨fun m hm => absurd hm (hno m), Or.inr hsz⟩⟩
      · omega

/-- C53: copying puts the selected bytes, up to a NUL, on the clipboard and changes
nothing else. -/
theorem C53_copy {e : BoxEnv φ} {s s' : TextBox φ} {c : Cursor} (hfoc : s.focused = true) (hsel : s.sel = some c) (hne : c.1 ≠ s.cursor.1)
    (h : handle e s .copy = some s') :
    s' = { s with clip := some (((s.text.drop (min c.1 s.cursor.1)).take (max c.1 s.cursor.1 - min c.1 s.cursor.1)).takeWhile (· ≠ 0)) } := by
  unfold handle at h
  simp only [hfoc, if_true, key] at h
  rw [← copy_clip hsel hne h]
  exact copy_fields h

theorem takeWhile_all {α : Type _} (p : α → Bool) : ∀ (l : List α), (∀ x ∈ l, p x = true) → l.takeWhile p = l
  | [], _ => rfl
  | a :: l, h => by
    rw [List.takeWhile_cons, if_pos (h a (by simp)), takeWhile_all p l (fun x hx => h x (by simp [hx]))]

/-- C53 (partial: no NUL among the selected bytes): cutting and pasting restores
the text. -/
theorem C53_cut_paste_partial {e : BoxEnv φ} {s s1 s2 : TextBox φ} {c : Cursor} (hfoc : s.focused = true) (hed : s.editable = true)
    (hsel : s.sel = some c) (hne : c.1 ≠ s.cursor.1) (hc : s.cursor.1 ≤ s.text.length) (hc' : c.1 ≤ s.text.length)
    (hnul : (0 : UInt8) ∉ s.text) (h1 : handle e s .cut = some s1) (h2 : handle e s1 .paste = some s2) : s2.text = s.text := by
  have hcol : s.sel ≠ some s.cursor := by
    rw [hsel]; intro he; exact hne (congrArg Prod.fst (Option.some.inj he))
  unfold handle at h1
  simp only [hfoc, if_true, key, TextBox.cut, hed, Bool.not_true, Bool.false_eq_true, if_false] at h1
  split at h1
  · cases h1
  rename_i s0 h0
  have hclip := copy_clip hsel hne h0
  have hs0 := copy_fields h0
  have e1 : s0.sel = s.sel := by rw [hs0]
  have e2 : s0.cursor = s.cursor := by rw [hs0]
  have e3 : s0.text = s.text := by rw [hs0]
  have e4 : s0.editable = s.editable := by rw [hs0]
  have e5 : s0.focused = s.focused := by rw [hs0]
  obtain ⟨⟨a, b, -, hb, ht, hcur, hs⟩, h3, h4, -, h5⟩ := removeHighlighted_fields (by rw [e1, e2]; exact hcol) h1
  obtain ⟨rfl, rfl⟩ := hb c (e1.trans hsel)
  simp only [List.append_nil, List.length_nil, Nat.add_zero, e2, e3] at ht hcur
  have hrep := C53_paste_partial (h5.trans (e5.trans hfoc)) (h4.trans (e4.trans hed)) (h3.trans hclip) (by rw [hs]; exact fun h => by cases h)
    (by rw [ht, hcur, List.length_append, List.length_take, List.length_drop]; omega) (fun c hc => by rw [hs] at hc; cases hc) h2
  obtain ⟨a', b', ha', -, ht', -, -⟩ := hrep
  obtain ⟨rfl, rfl⟩ := ha' hs
  rw [ht', ht, hcur]
  rw [takeWhile_all _ _ (by
    intro x hx
    have hx' := List.mem_of_mem_drop (List.mem_of_mem_take hx)
    simp only [ne_eq, decide_not, Bool.not_eq_true', decide_eq_false_iff_not]
    rintro rfl
    exact hnul hx')]
  generalize ha : min c.1 s.cursor.1 = a at *
  generalize hb : max c.1 s.cursor.1 = b at *
  have hab : a ≤ b := by omega
  have hbl : b ≤ s.text.length := by omega
  have hl : (s.text.take a).length = a := by rw [List.length_take]; omega
  have hd1 : (s.text.take a ++ s.text.drop b).take a = s.text.take a := by
    rw [List.take_append_of_le_length (by omega), List.take_of_length_le (by omega)]
  have hd2 : (s.text.take a ++ s.text.drop b).drop a = s.text.drop b := by
    rw [List.drop_append_of_le_length (by omega), List.drop_of_length_le (by omega), List.nil_append]
  rw [hd1, hd2]
  have hd : s.text.drop b = (s.text.drop a).drop (b - a) := by rw [List.drop_drop]; congr 1; omega
  rw [hd, List.append_assoc, List.take_append_drop, List.take_append_drop]

/-! ## C54: read-only boxes -/

/-- C54 (partial: not for Backspace, Delete, Enter and Tab).  Whatever else the user
does, in every state and environment, the text of a box that is not editable stays. -/
theorem C54_read_only_partial {e : BoxEnv φ} {s s' : TextBox φ} {i : Input} (hed : s.editable = false)
    (hi : (∀ b, i ≠ .backspace b) ∧ (∀ b, i ≠ .delete b) ∧ i ≠ .enter ∧ i ≠ .tab) (h : handle e s i = some s') :
    s'.text = s.text ∧ s'.editable = false := by
  have hset : ∀ {s s' : TextBox φ} {pos : Cursor} {b : Bool}, setCursor e s pos b = some s' → s'.text = s.text ∧ s'.editable = s.editable := by
    intro s s' pos b h
    have := (setCursor_fields h).1
    constructor <;> rw [this]
  have hrec : ∀ {s s' : TextBox φ}, recalc e s = some s' → s'.text = s.text ∧ s'.editable = s.editable := by
    intro s s' h
    have := recalc_fields h
    constructor <;> rw [this]
  have hopt : ∀ {s s' : TextBox φ} {o : Option Cursor} {b : Bool}, (match o with | none => none | some c => setCursor e s c b) = some s' →
      s'.text = s.text ∧ s'.editable = s.editable := by
    intro s s' o b h
    cases o with
    | none => cases h
    | some c => exact hset h
  have hpw : ∀ {s s' : TextBox φ} {b : Bool}, TextBox.prevWord e s b = some s' → s'.text = s.text ∧ s'.editable = s.editable := hopt
  have hnw : ∀ {s s' : TextBox φ} {b : Bool}, TextBox.nextWord e s b = some s' → s'.text = s.text ∧ s'.editable = s.editable := hopt
  have hlst : ∀ {s s' : TextBox φ} {b : Bool}, TextBox.lineStart e s b = some s' → s'.text = s.text ∧ s'.editable = s.editable := hopt
  have hle : ∀ {s s' : TextBox φ} {b : Bool}, TextBox.lineEnd e s b = some s' → s'.text = s.text ∧ s'.editable = s.editable := hopt
  have hmouse : ∀ {s s' : TextBox φ} {x y : Rat} {b : Bool}, toMouse e s x y b = some s' → s'.text = s.text ∧ s'.editable = s.editable := hopt
  have hfocus : ∀ {s s' : TextBox φ}, TextBox.focus e s = some s' → s'.text = s.text ∧ s'.editable = s.editable := by
    intro s s' h
    unfold TextBox.focus at h
    split at h
    · cases h; exact ⟨rfl, rfl⟩
    · have := hrec h
      exact this
  have hbetween : ∀ {f g : TextBox φ → Bool → Option (TextBox φ)}
      (_ : ∀ {s s' : TextBox φ} {b : Bool}, f s b = some s' → s'.text = s.text ∧ s'.editable = s.editable)
      (_ : ∀ {s s' : TextBox φ} {b : Bool}, g s b = some s' → s'.text = s.text ∧ s'.editable = s.editable)
      {s s' : TextBox φ}, selectBetween f g s = some s' → s'.text = s.text ∧ s'.editable = s.editable := by
    intro f g hf hg s s' h
    unfold selectBetween at h
    split at h
    · cases h
    · rename_i s1 h1
      have e1 := hf h1
      have e2 := hg h
      exact ⟨e2.1.trans e1.1, e2.2.trans e1.2⟩
  suffices hh : s'.text = s.text ∧ s'.editable = s.editable from ⟨hh.1, hh.2.trans hed⟩
  obtain ⟨n1, n2, n3, n4⟩ := hi
  cases i with
  | backspace b => exact absurd rfl (n1 b)
  | delete b => exact absurd rfl (n2 b)
  | enter => exact absurd rfl n3
  | tab => exact absurd rfl n4
  | press x y shift clicks =>
    simp only [handle, TextBox.press] at h
    split at h
    · split at h
      · cases h
      · rename_i s1 h1
        have e1 := hmouse h1
        split at h
        · cases h
        · rename_i s2 h2
          cases h
          suffices e2 : s2.text = s1.text ∧ s2.editable = s1.editable from ⟨e2.1.trans e1.1, e2.2.trans e1.2⟩
          unfold clickSelect at h2
          split at h2
          · exact hbetween hpw hnw h2
          · exact hbetween hlst hle h2
          · exact hbetween hset hset h2
          · cases h2; exact ⟨rfl, rfl⟩
    · split at h
      · cases h
      · rename_i s1 h1
        have e1 := hrec h1
        split at h
        · cases h
        · rename_i s2 h2
          have e2 := hmouse h2
          have e3 := hfocus h
          exact ⟨e3.1.trans (e2.1.trans e1.1), e3.2.trans (e2.2.trans e1.2)⟩
  | release =>
    simp only [handle] at h
    cases h
    split <;> exact ⟨rfl, rfl⟩
  | move x y =>
    simp only [handle] at h
    split at h
    · exact hmouse h
    · cases h; exact ⟨rfl, rfl⟩
  | char c =>
    simp only [handle, hed, Bool.and_false, Bool.false_eq_true, if_false] at h
    cases h; exact ⟨rfl, rfl⟩
  | focus => exact hfocus h
  | blur =>
    simp only [handle, TextBox.blur] at h
    split at h
    · have := hrec h
      exact this
    · cases h; exact ⟨rfl, rfl⟩
  | up shift =>
    simp only [handle, key] at h
    split at h
    · unfold TextBox.prevLine at h
      split at h
      · exact hopt h
      · exact hset h
    · cases h; exact ⟨rfl, rfl⟩
  | down shift =>
    simp only [handle, key] at h
    split at h
    · unfold TextBox.nextLine at h
      split at h
      · exact hopt h
      · exact hset h
    · cases h; exact ⟨rfl, rfl⟩
  | left shift ctrl =>
    simp only [handle, key] at h
    split at h
    · split at h
      · exact hpw h
      · exact hset h
    · cases h; exact ⟨rfl, rfl⟩
  | right shift ctrl =>
    simp only [handle, key] at h
    split at h
    · split at h
      · exact hnw h
      · exact hset h
    · cases h; exact ⟨rfl, rfl⟩
  | home shift ctrl =>
    simp only [handle, key] at h
    split at h
    · split at h
      · exact hset h
      · exact hlst h
    · cases h; exact ⟨rfl, rfl⟩
  | «end» shift ctrl =>
    simp only [handle, key] at h
    split at h
    · split at h
      · exact hset h
      · exact hle h
    · cases h; exact ⟨rfl, rfl⟩
  | cut =>
    simp only [handle, key, TextBox.cut, hed, Bool.not_false, if_true] at h
    split at h <;> (cases h; exact ⟨rfl, rfl⟩)
  | copy =>
    simp only [handle, key] at h
    split at h
    · have := copy_fields h
      constructor <;> rw [this]
    · cases h; exact ⟨rfl, rfl⟩
  | paste =>
    simp only [handle, key, TextBox.paste, hed, Bool.not_false, if_true] at h
    split at h <;> (cases h; exact ⟨rfl, rfl⟩)
  | selectAll =>
    simp only [handle, key] at h
    split at h
    · exact hbetween hset hset h
    · cases h; exact ⟨rfl, rfl⟩

/-! ## C52: the cursor stays inside -/

namespace TextBox

/-- `s'` differs from `s` in cursor, selection and caret only. -/
def Moved (s s' : TextBox φ) : Prop :=
  s' = { s with sel := s'.sel, cursor := s'.cursor, info := s'.info, timer := s'.timer, flash := s'.flash }

/-- The text is laid out as it is shown. -/
structure Shows (e : BoxEnv φ) (s : TextBox φ) : Prop where
  ctrl : s.ctrl = s.shown e
  small : s.text.length < e.limit
  laid : s.shown e ≠ [] → s.layout = e.layout s.showsRich s.text ∧ s.info.line < s.layout.lines.length

theorem Sound.shows {e : BoxEnv φ} {s : TextBox φ} (h : Sound e s) : Shows e s := ⟨h.ctrl, h.small, h.laid⟩

theorem shown_eq (e : BoxEnv φ) (s : TextBox φ) : s.shown e = if s.showsRich then e.content s.text else s.text := by
  unfold shown showsRich
  cases s.rich <;> cases s.focused <;> cases s.editable <;> simp

theorem shown_plain {e : BoxEnv φ} {s : TextBox φ} (h : s.showsRich = false) : s.shown e = s.text := by
  rw [shown_eq, h]; rfl

theorem shown_le {e : BoxEnv φ} (hg : e.Good) (s : TextBox φ) : (s.shown e).length ≤ s.text.length := by
  rw [shown_eq]
  split
  · exact hg.content s.text
  · exact Nat.le_refl _

theorem Moved.shown {e : BoxEnv φ} {s s' : TextBox φ} (h : Moved s s') : s'.shown e = s.shown e := by
  rw [h]; rfl

theorem Moved.showsRich {s s' : TextBox φ} (h : Moved s s') : s'.showsRich = s.showsRich := by
  rw [h]; rfl

theorem Shows.laidOut {e : BoxEnv φ} (hg : e.Good) {s : TextBox φ} (h : Shows e s) (hne : s.shown e ≠ []) :
    LaidOut s.layout (s.shown e).length := by
  rw [(h.laid hne).1]
  rw [shown_eq] at hne ⊢
  cases hr : s.showsRich with
  | false => rw [hr] at hne; exact hg.layout s.text hne h.small
  | true => rw [hr] at hne; exact hg.rich s.text hne h.small

theorem Sound.laidOut {e : BoxEnv φ} (hg : e.Good) {s : TextBox φ} (h : Sound e s) (hne : s.shown e ≠ []) :
    LaidOut s.layout (s.shown e).length := h.shows.laidOut hg hne

theorem follows {e : BoxEnv φ} (hg : e.Good) {t : Bytes} (hs : t.length < e.limit) :
    ∃ B, FollowsBoundaries (e.breaks t).follow B ∧ B t.length := by
  obtain ⟨B, hB⟩ := hg.breaks t
  refine ⟨B, ⟨?_, ?_, ?_⟩, ?_⟩
  · intro k n hk
    have := hB.follow_next k n hk
    exact ⟨this.1, this.2.1, fun b hb hBb => this.2.2 b hBb hb⟩
  · exact fun k b hk hb => hB.follow_done k b hk hb
  · intro b hb
    have := hB.inside b hb
    rw [hg.size] at this
    have := hg.limit.2
    omega
  · rw [← hg.size]; exact hB.last

theorem setCursor_sound {e : BoxEnv φ} (hg : e.Good) {s : TextBox φ} (h : Sound e s) (hne : s.shown e ≠ []) {pos : Cursor}
    (hp : pos.1 ≤ (s.shown e).length) (b : Bool) : ∃ s', setCursor e s pos b = some s' ∧ Sound e s' ∧ Moved s s' := by
  obtain ⟨ls, y, h1, h2, h3, h4, h5⟩ := h.laidOut hg hne
  obtain ⟨info, hi, hl⟩ := cursorPixelPos_total h1 h3 h2 h4 e.width e.align pos.1 pos.2
  unfold setCursor
  simp only [hi]
  refine ⟨_, rfl, ⟨h.mode, h.ctrl, h.small, hp, ?_, fun hn => ⟨(h.laid hn).1, hl⟩⟩, rfl⟩
  intro c hc
  simp only at hc
  split at hc
  · split at hc
    · cases hc; exact h.cursor
    · rename_i c' hs
      cases hc; exact h.sel c hs
  · cases hc

/-- A box with a text and a cursor inside it is recalculated. -/
theorem recalc_shows {e : BoxEnv φ} (hg : e.Good) {s : TextBox φ} (hs : s.text.length < e.limit) :
    ∃ s', recalc e s = some s' ∧ Shows e s' ∧ s' = { s with ctrl := s'.ctrl, layout := s'.layout, info := s'.info } := by
  unfold recalc
  simp only
  rw [← shown_eq]
  by_cases ht : s.shown e = []
  · rw [if_pos ht]
    exact ⟨_, rfl, ⟨rfl, hs, fun hn => absurd ht hn⟩, rfl⟩
  · rw [if_neg ht]
    have hlay : LaidOut (e.layout s.showsRich s.text) (s.shown e).length := by
      rw [shown_eq] at ht ⊢
      cases hr : s.showsRich with
      | false => rw [hr] at ht; exact hg.layout s.text ht hs
      | true => rw [hr] at ht; exact hg.rich s.text ht hs
    obtain ⟨ls, y, h1, h2, h3, h4, h5⟩ := hlay
    obtain ⟨info, hi, hl⟩ := cursorPixelPos_total h1 h3 h2 h4 e.width e.align s.cursor.1 s.cursor.2
    simp only [hi]
    exact ⟨_, rfl, ⟨rfl, hs, fun _ => ⟨rfl, hl⟩⟩, rfl⟩

theorem recalc_sound {e : BoxEnv φ} (hg : e.Good) {s : TextBox φ} (hr : s.rich = true → s.editable = true → s.focused = true)
    (hs : s.text.length < e.limit)
    (hc : s.cursor.1 ≤ (s.shown e).length) (hsel : ∀ c, s.sel = some c → c.1 ≤ (s.shown e).length) :
    ∃ s', recalc e s = some s' ∧ Sound e s' ∧ s'.text = s.text := by
  obtain ⟨s', h1, h2, h3⟩ := recalc_shows hg hs
  have hsh : s'.shown e = s.shown e := by rw [h3]; rfl
  refine ⟨s', h1, ⟨?_, h2.ctrl, h2.small, ?_, ?_, h2.laid⟩, by rw [h3]⟩
  · rw [h3]; exact hr
  · rw [hsh, h3]; exact hc
  · rw [hsh, h3]; exact hsel

theorem setText_sound {e : BoxEnv φ} (hg : e.Good) {s : TextBox φ} {t : Bytes} (hr : s.rich = true → s.editable = true → s.focused = true)
    (hp : s.showsRich = false) (hs : t.length < e.limit)
    (hc : s.cursor.1 ≤ t.length) (hsel : ∀ c, s.sel = some c → c.1 ≤ t.length) :
    ∃ s', setText e s t = some s' ∧ Sound e s' ∧ s'.showsRich = false := by
  have hsh : ({ s with text := t } : TextBox φ).shown e = t := shown_plain (s := { s with text := t }) hp
  obtain ⟨s', h1, h2, -⟩ := recalc_sound hg (s := { s with text := t }) hr hs (by rw [hsh]; exact hc) (by rw [hsh]; exact hsel)
  refine ⟨s', h1, h2, ?_⟩
  obtain ⟨s'', g1, -, g3⟩ := recalc_shows hg (s := { s with text := t }) hs
  have : s'' = s' := Option.some.inj (g1.symm.trans h1)
  rw [← this, g3]
  exact hp

theorem removeText_sound {e : BoxEnv φ} (hg : e.Good) {s : TextBox φ} {a b : Nat} (hr : s.rich = true → s.editable = true → s.focused = true)
    (hp : s.showsRich = false) (hs : s.text.length < e.limit)
    (hab : a ≤ b) (hb : b ≤ s.text.length) (hc : s.cursor.1 ≤ a) (hsel : s.sel = none) :
    ∃ s', removeText e s a b = some s' ∧ Sound e s' ∧ s'.showsRich = false := by
  unfold removeText
  rw [if_pos hb]
  have hl : (s.text.take a ++ s.text.drop b).length = a + (s.text.length - b) := by
    rw [List.length_append, List.length_take, List.length_drop]; omega
  exact setText_sound hg hr hp (by omega) (by omega) (fun c hc => by rw [hsel] at hc; cases hc)

theorem removeHighlighted_sound {e : BoxEnv φ} (hg : e.Good) {s : TextBox φ} (h : Sound e s) (hp : s.showsRich = false) :
    ∃ s', removeHighlighted e s = some s' ∧ Sound e s' ∧ s'.text.length ≤ s.text.length ∧ s'.clip = s.clip ∧ s'.showsRich = false := by
  have hsh := shown_plain (e := e) hp
  have hcur := h.cursor
  rw [hsh] at hcur
  have key : ∀ {s1 s' : TextBox φ} {a b : Nat}, a ≤ b → s1.text = s.text → s1.clip = s.clip → removeText e s1 a b = some s' →
      s'.text.length ≤ s.text.length ∧ s'.clip = s.clip := by
    intro s1 s' a b hab h1 h2 h3
    obtain ⟨h4, h5⟩ := removeText_fields h3
    rw [h5]
    refine ⟨?_, h2⟩
    simp only [h1, List.length_append, List.length_take, List.length_drop] at h4 ⊢
    omega
  unfold removeHighlighted
  split
  · exact ⟨s, rfl, h, Nat.le_refl _, rfl, hp⟩
  · rename_i start hs
    have hst := h.sel start hs
    rw [hsh] at hst
    split
    · exact ⟨s, rfl, h, Nat.le_refl _, rfl, hp⟩
    · split
      · rename_i hgt
        obtain ⟨s', h1, h2, h3⟩ := removeText_sound hg (s := { s with sel := none }) h.mode hp h.small (show s.cursor.1 ≤ start.1 by omega) hst
          (Nat.le_refl _) rfl
        have := key (s1 := _) (by omega) (by exact rfl) (by exact rfl) h1
        exact ⟨s', h1, h2, this.1, this.2, h3⟩
      · rename_i hgt
        obtain ⟨s', h1, h2, h3⟩ := removeText_sound hg (s := { s with cursor := start, sel := none }) h.mode hp h.small
          (show start.1 ≤ s.cursor.1 by omega) hcur (Nat.le_refl _) rfl
        have := key (s1 := _) (by omega) (by exact rfl) (by exact rfl) h1
        exact ⟨s', h1, h2, this.1, this.2, h3⟩

theorem insertText_sound {e : BoxEnv φ} (hg : e.Good) {s : TextBox φ} (h : Sound e s) (hp : s.showsRich = false) {ins : Bytes}
    (hs : s.text.length + ins.length < e.limit) : ∃ s', insertText e s ins s.cursor.1 = some s' ∧ Sound e s' ∧ s'.showsRich = false := by
  have hsh := shown_plain (e := e) hp
  have hc := h.cursor
  rw [hsh] at hc
  have hl : (s.text.take s.cursor.1 ++ ins ++ s.text.drop s.cursor.1).length = s.text.length + ins.length := by
    rw [List.length_append, List.length_append, List.length_take, List.length_drop]; omega
  have hl' : (s.text ++ ins).length = s.text.length + ins.length := List.length_append
  unfold insertText
  simp only
  split
  · refine setText_sound hg h.mode hp (by rw [hl]; exact hs) (by rw [hl]; simp only; omega) ?_
    intro c hc'
    have := h.sel c hc'
    rw [hsh] at this
    rw [hl]; omega
  · refine setText_sound hg h.mode hp (by rw [hl']; exact hs) (by rw [hl']; simp only; omega) ?_
    intro c hc'
    have := h.sel c hc'
    rw [hsh] at this
    rw [hl']; omega

theorem utf8Encode_length (c : Nat) : (utf8Encode c).length ≤ 4 := by
  unfold utf8Encode
  repeat' split
  all_goals simp

theorem insertTyped_sound {e : BoxEnv φ} (hg : e.Good) {s : TextBox φ} (h : Sound e s) (hp : s.showsRich = false) {c : Nat}
    (hs : s.text.length + (utf8Encode c).length < e.limit) : ∃ s', insertTyped e s c = some s' ∧ Sound e s' ∧ s'.showsRich = false := by
  obtain ⟨s1, h1, h2, h3, -, h6⟩ := removeHighlighted_sound hg h hp
  obtain ⟨s2, h4, h5⟩ := insertText_sound hg h2 h6 (ins := utf8Encode c) (by omega)
  refine ⟨s2, ?_, h5⟩
  unfold insertTyped
  rw [h1]
  exact h4

/-- The movements. -/
theorem nextCharacter_sound {e : BoxEnv φ} (hg : e.Good) {s : TextBox φ} (h : Sound e s) (hne : s.shown e ≠ []) (b : Bool) :
    ∃ s', TextBox.nextCharacter e s b = some s' ∧ Sound e s' ∧ Moved s s' := by
  obtain ⟨B, hB⟩ := hg.breaks s.ctrl
  have hsz : (e.breaks s.ctrl).size = (s.shown e).length := by rw [hg.size, h.ctrl]
  have := (C50_inside hB (cursor := s.cursor) (by rw [hsz]; exact h.cursor)).1
  exact setCursor_sound hg h hne (by rw [← hsz]; exact this) b

theorem prevCharacter_sound {e : BoxEnv φ} (hg : e.Good) {s : TextBox φ} (h : Sound e s) (hne : s.shown e ≠ []) (b : Bool) :
    ∃ s', TextBox.prevCharacter e s b = some s' ∧ Sound e s' ∧ Moved s s' := by
  obtain ⟨B, hB⟩ := hg.breaks s.ctrl
  have hsz : (e.breaks s.ctrl).size = (s.shown e).length := by rw [hg.size, h.ctrl]
  have := (C50_inside hB (cursor := s.cursor) (by rw [hsz]; exact h.cursor)).2
  exact setCursor_sound hg h hne (by rw [← hsz]; exact this) b

theorem words_sound {e : BoxEnv φ} (hg : e.Good) {s : TextBox φ} (h : Sound e s) (hne : s.shown e ≠ []) (b : Bool) :
    (∃ s', TextBox.nextWord e s b = some s' ∧ Sound e s' ∧ Moved s s') ∧
      ∃ s', TextBox.prevWord e s b = some s' ∧ Sound e s' ∧ Moved s s' := by
  obtain ⟨B, hB⟩ := hg.breaks s.ctrl
  have hsz : (e.breaks s.ctrl).size = (s.shown e).length := by rw [hg.size, h.ctrl]
  obtain ⟨n, p, h1, h2, h3, h4, h5, -⟩ := C51_direction hB (hg.spaces s.ctrl) (cursor := s.cursor) (by rw [hsz]; exact h.cursor)
  have hc := h.cursor
  constructor
  · unfold TextBox.nextWord
    rw [h1]
    exact setCursor_sound hg h hne (by rw [← hsz]; exact h5) b
  · unfold TextBox.prevWord
    rw [h2]
    exact setCursor_sound hg h hne (by omega) b

theorem closest_sound {e : BoxEnv φ} (hg : e.Good) {s : TextBox φ} (h : Shows e s) (hne : s.shown e ≠ []) {m : Nat}
    (hm : m < s.layout.lines.length) (x : Rat) :
    ∃ c, (e.breaks s.ctrl).closestInLine s.layout e.width e.align m x = some c ∧ c.1 ≤ (s.shown e).length := by
  obtain ⟨ls, y, h1, h2, h3, h4, h5⟩ := h.laidOut hg hne
  obtain ⟨B, hf, hB⟩ := follows hg (t := s.ctrl) (by rw [h.ctrl]; exact Nat.lt_of_le_of_lt (shown_le hg s) h.small)
  have hl := List.getElem?_eq_getElem (show m < ls.length by rw [← h1.lineCount]; exact hm)
  have hl5 := h5 _ (List.mem_of_getElem? hl)
  obtain ⟨p, a, h6, h7⟩ := findClosest_inside h1 h3 h4 hl hl5.1 e.width e.align hf hB (fun r hr => by rw [h.ctrl]; exact hl5.2 r hr) x
  exact ⟨(p, a), h6, by rw [h.ctrl] at h7; exact h7⟩

theorem lines_sound {e : BoxEnv φ} (hg : e.Good) {s : TextBox φ} (h : Sound e s) (hne : s.shown e ≠ []) (b : Bool) :
    (∃ s', TextBox.nextLine e s b = some s' ∧ Sound e s' ∧ Moved s s') ∧
      ∃ s', TextBox.prevLine e s b = some s' ∧ Sound e s' ∧ Moved s s' := by
  have hl := (h.laid hne).2
  constructor
  · unfold TextBox.nextLine
    split
    · obtain ⟨c, h1, h2⟩ := closest_sound hg h.shows hne (m := s.info.line + 1) (by omega) s.info.x
      rw [h1]
      exact setCursor_sound hg h hne h2 b
    · exact setCursor_sound hg h hne h.cursor b
  · unfold TextBox.prevLine
    split
    · obtain ⟨c, h1, h2⟩ := closest_sound hg h.shows hne (m := s.info.line - 1) (by omega) s.info.x
      rw [h1]
      exact setCursor_sound hg h hne h2 b
    · exact setCursor_sound hg h hne h.cursor b

theorem ends_sound {e : BoxEnv φ} (hg : e.Good) {s : TextBox φ} (h : Sound e s) (hne : s.shown e ≠ []) (b : Bool) :
    (∃ s', TextBox.lineStart e s b = some s' ∧ Sound e s' ∧ Moved s s') ∧
      ∃ s', TextBox.lineEnd e s b = some s' ∧ Sound e s' ∧ Moved s s' := by
  have hl := (h.laid hne).2
  obtain ⟨ls, y, h1, h2, h3, h4, h5⟩ := h.laidOut hg hne
  obtain ⟨l, hl'⟩ : ∃ l, ls[s.info.line]? = some l :=
    ⟨_, List.getElem?_eq_getElem (show s.info.line < ls.length by rw [← h1.lineCount]; exact hl)⟩
  have hl5 := h5 _ (List.mem_of_getElem? hl')
  obtain ⟨⟨p, a, q1, r, hr, q2⟩, ⟨p', a', q3, r', hr', q4⟩⟩ := C23_in_line h1 h3 s.info.line _ hl'
  have hrun : ∀ r ∈ l.runs, r.charStart ≤ (s.shown e).length ∧ r.charEnd ≤ (s.shown e).length := by
    intro r hr
    have h6 := hl5.2 r hr
    have h7 : r.charStart ≤ r.charEnd := by
      rcases hl5.1.runs r hr with h | h
      · exact h.start_end
      · exact h.start_end
    omega
  constructor
  · unfold TextBox.lineStart
    rw [q1]
    have := hrun r hr
    exact setCursor_sound hg h hne (by simp only; omega) b
  · unfold TextBox.lineEnd
    rw [q3]
    have := hrun r' hr'
    exact setCursor_sound hg h hne (by simp only; omega) b

theorem toMouse_sound {e : BoxEnv φ} (hg : e.Good) {s : TextBox φ} (h : Sound e s) (hne : s.shown e ≠ []) (x y : Rat) (b : Bool) :
    ∃ s', toMouse e s x y b = some s' ∧ Sound e s' ∧ Moved s s' := by
  have hl := (h.laid hne).2
  obtain ⟨m, h1, h2⟩ := closestToPositionLine_total (L := s.layout) (List.ne_nil_of_length_pos (by omega)) y
  obtain ⟨c, h3, h4⟩ := closest_sound hg h.shows hne h2 x
  unfold toMouse BreakEnv.closestToPosition
  rw [h1]
  simp only
  unfold BreakEnv.closestInLine at h3
  rw [h3]
  exact setCursor_sound hg h hne h4 b

theorem between_sound {e : BoxEnv φ} {f g : TextBox φ → Bool → Option (TextBox φ)}
    (hf : ∀ s b, Sound e s → s.shown e ≠ [] → ∃ s', f s b = some s' ∧ Sound e s' ∧ Moved s s')
    (hg : ∀ s b, Sound e s → s.shown e ≠ [] → ∃ s', g s b = some s' ∧ Sound e s' ∧ Moved s s') {s : TextBox φ}
    (h : Sound e s) (hne : s.shown e ≠ []) : ∃ s', selectBetween f g s = some s' ∧ Sound e s' ∧ s'.text = s.text := by
  obtain ⟨s1, h1, h2, h3⟩ := hf s false h hne
  have ht1 : s1.text = s.text := by rw [h3]
  obtain ⟨s2, h4, h5, h6⟩ := hg s1 true h2 (by rw [h3.shown]; exact hne)
  have ht2 : s2.text = s1.text := by rw [h6]
  unfold selectBetween
  rw [h1]
  exact ⟨s2, h4, h5, ht2.trans ht1⟩

theorem Sound.withDrag {e : BoxEnv φ} {s : TextBox φ} (h : Sound e s) (d : Bool) : Sound e { s with drag := d } :=
  ⟨h.mode, h.ctrl, h.small, h.cursor, h.sel, h.laid⟩

theorem focus_sound {e : BoxEnv φ} (hg : e.Good) {s : TextBox φ} (h : Sound e s) : ∃ s', TextBox.focus e s = some s' ∧ Sound e s' := by
  unfold TextBox.focus
  split
  · exact ⟨s, rfl, h⟩
  · rename_i hf
    have hsh : ({ s with focused := true } : TextBox φ).shown e = s.shown e := by
      have := h.mode
      unfold TextBox.shown
      cases hr : s.rich <;> cases he : s.editable <;> simp_all
    obtain ⟨s', h1, h2, -⟩ := recalc_sound hg (s := { s with focused := true }) (fun _ _ => rfl) h.small (by rw [hsh]; exact h.cursor)
      (by rw [hsh]; exact h.sel)
    exact ⟨s', h1, h2⟩

theorem Resting.focus {e : BoxEnv φ} (hg : e.Good) {s : TextBox φ} (h : Resting e s) : ∃ s', TextBox.focus e s = some s' ∧ Sound e s' := by
  obtain ⟨hr, he, hf⟩ := h.mode
  unfold TextBox.focus
  rw [hf]
  have hsh : ({ s with focused := true } : TextBox φ).shown e = s.text := by
    unfold TextBox.shown
    simp [he]
  obtain ⟨s', h1, h2, -⟩ := recalc_sound hg (s := { s with focused := true }) (fun _ _ => rfl) h.small (by rw [hsh]; exact h.cursor)
    (by rw [hsh]; exact h.sel)
  exact ⟨s', h1, h2⟩

/-- The states of a box. -/
def Valid (e : BoxEnv φ) (s : TextBox φ) : Prop := Sound e s ∨ Resting e s

theorem Valid.cursor {e : BoxEnv φ} (hg : e.Good) {s : TextBox φ} (h : Valid e s) :
    s.cursor.1 ≤ s.text.length ∧ ∀ c, s.sel = some c → c.1 ≤ s.text.length := by
  rcases h with h | h
  · have := shown_le hg s
    exact ⟨Nat.le_trans h.cursor this, fun c hc => Nat.le_trans (h.sel c hc) this⟩
  · exact ⟨h.cursor, h.sel⟩

theorem blur_valid {e : BoxEnv φ} (hg : e.Good) {s : TextBox φ} (h : Sound e s) : ∃ s', TextBox.blur e s = some s' ∧ Valid e s' := by
  unfold TextBox.blur
  split
  · rename_i hf
    by_cases hrest : s.rich = true ∧ s.editable = true
    · obtain ⟨s', h1, h2, h3⟩ := recalc_shows hg (s := { s with focused := false, sel := none, drag := false }) h.small
      refine ⟨s', h1, Or.inr ?_⟩
      have hc := Nat.le_trans h.cursor (shown_le hg s)
      rw [h3]
      exact ⟨⟨hrest.1, hrest.2, rfl⟩, h.small, hc, fun c hc => by cases hc⟩
    · have hsh : ({ s with focused := false, sel := none, drag := false } : TextBox φ).shown e = s.shown e := by
        unfold TextBox.shown
        cases hr : s.rich <;> cases he : s.editable <;> simp_all
      obtain ⟨s', h1, h2, -⟩ := recalc_sound hg (s := { s with focused := false, sel := none, drag := false })
        (fun h1 h2 => absurd ⟨h1, h2⟩ hrest) h.small (by rw [hsh]; exact h.cursor) (fun c hc => by cases hc)
      exact ⟨s', h1, Or.inl h2⟩
  · exact ⟨s, rfl, Or.inl h⟩

theorem copy_sound {e : BoxEnv φ} (hg : e.Good) {s : TextBox φ} (h : Sound e s) :
    ∃ s', TextBox.copy s = some s' ∧ Sound e s' ∧ s'.showsRich = s.showsRich := by
  unfold TextBox.copy
  split
  · exact ⟨s, rfl, h, rfl⟩
  · simp only
    split
    · exact ⟨s, rfl, h, rfl⟩
    · have := h.cursor
      have hle := shown_le hg s
      rw [if_pos (by omega)]
      exact ⟨_, rfl, ⟨h.mode, h.ctrl, h.small, h.cursor, h.sel, h.laid⟩, rfl⟩

/-- What is asked of an input: while nothing is shown it is not a movement, Backspace,
Delete, Enter and Tab do not go to a read-only rich text, there is something to
paste, and the text does not grow over the limit. -/
def Allowed (e : BoxEnv φ) (s : TextBox φ) (i : Input) : Prop :=
  (s.shown e ≠ [] ∨ i.moves = false) ∧ (i.edits = true → s.editable = true ∨ s.rich = false) ∧ (i = .paste → s.clip ≠ none) ∧
    s.text.length + s.growth i < e.limit

/-- A click into a rich text at rest. -/
theorem Resting.press {e : BoxEnv φ} (hg : e.Good) {s : TextBox φ} (h : Resting e s) (hne : s.shown e ≠ []) (x y : Rat) (shift : Bool) (clicks : Nat) :
    ∃ s', TextBox.press e s x y shift clicks = some s' ∧ Sound e s' := by
  obtain ⟨hr, he, hf⟩ := h.mode
  unfold TextBox.press
  rw [hf]
  simp only [Bool.false_eq_true, if_false]
  obtain ⟨s1, h1, h2, h3⟩ := recalc_shows hg h.small
  have hsh1 : s1.shown e = s.shown e := by rw [h3]; rfl
  have ht1 : s1.text = s.text := by rw [h3]
  have hne1 : s1.shown e ≠ [] := by rw [hsh1]; exact hne
  rw [h1]
  simp only
  obtain ⟨m, m1, m2⟩ := closestToPositionLine_total (L := s1.layout) (List.ne_nil_of_length_pos (by have := (h2.laid hne1).2; omega)) y
  obtain ⟨c, c1, c2⟩ := closest_sound hg h2 hne1 m2 x
  have hcl : (e.breaks s1.ctrl).closestToPosition s1.layout e.width e.align x y = some c := by
    unfold BreakEnv.closestToPosition
    rw [m1]
    exact c1
  obtain ⟨ls, y', l1, l2, l3, l4, l5⟩ := h2.laidOut hg hne1
  obtain ⟨info, hi, hl⟩ := cursorPixelPos_total l1 l3 l2 l4 e.width e.align c.1 c.2
  have hset : toMouse e s1 x y shift = some { s1 with
      sel := if shift then (match s1.sel with | none => some s1.cursor | some c => some c) else none, cursor := c, info := info,
      timer := 0, flash := 0 } := by
    unfold toMouse setCursor
    rw [hcl]
    simp only [hi]
    rfl
  rw [hset]
  simp only
  apply Resting.focus hg
  have hle := shown_le hg s1
  refine ⟨⟨?_, ?_, ?_⟩, ?_, ?_, ?_⟩
  · rw [h3]; exact hr
  · rw [h3]; exact he
  · rw [h3]; exact hf
  · exact h2.small
  · exact Nat.le_trans c2 hle
  · intro d hd
    simp only at hd ⊢
    rw [ht1]
    split at hd
    · split at hd
      · cases hd
        rw [h3]
        exact h.cursor
      · rename_i c' hs'
        cases hd
        rw [h3] at hs'
        exact h.sel _ hs'
    · cases hd

theorem handle_sound {e : BoxEnv φ} (hg : e.Good) {s : TextBox φ} (h : Sound e s) {i : Input} (hi : Allowed e s i) :
    ∃ s', handle e s i = some s' ∧ Valid e s' := by
  obtain ⟨hmv, hedit, hpaste, hgrow⟩ := hi
  have ok : ∀ {o : Option (TextBox φ)}, (∃ s', o = some s' ∧ Sound e s') → ∃ s', o = some s' ∧ Valid e s' := by
    rintro o ⟨s', h1, h2⟩; exact ⟨s', h1, Or.inl h2⟩
  have ok2 : ∀ {o : Option (TextBox φ)}, (∃ s', o = some s' ∧ Sound e s' ∧ s'.showsRich = false) → ∃ s', o = some s' ∧ Sound e s' := by
    rintro o ⟨s', h1, h2, -⟩; exact ⟨s', h1, h2⟩
  have hview : s.focused = true → s.editable = true ∨ s.rich = false → s.showsRich = false := by
    intro hf hr
    unfold TextBox.showsRich
    rw [hf]
    rcases hr with hr | hr <;> simp [hr]
  have drop3 : ∀ {o : Option (TextBox φ)} {s0 : TextBox φ}, (∃ s', o = some s' ∧ Sound e s' ∧ Moved s0 s') → ∃ s', o = some s' ∧ Sound e s' := by
    rintro o s0 ⟨s', h1, h2, -⟩; exact ⟨s', h1, h2⟩
  have same : ∃ s', some s = some s' ∧ Sound e s' := ⟨s, rfl, h⟩
  cases i with
  | press x y shift clicks =>
    refine ok ?_
    have hne : s.shown e ≠ [] := by simpa [Input.moves] using hmv
    simp only [handle, TextBox.press]
    split
    · obtain ⟨s1, h1, h2, h3⟩ := toMouse_sound hg h hne x y shift
      have hne1 : s1.shown e ≠ [] := by rw [h3.shown]; exact hne
      rw [h1]
      simp only
      have hsel : ∃ s', clickSelect e s1 clicks = some s' ∧ Sound e s' := by
        unfold clickSelect
        split
        · obtain ⟨s', q1, q2, -⟩ := between_sound (fun s b hs hn => (words_sound hg hs hn b).2) (fun s b hs hn => (words_sound hg hs hn b).1) h2 hne1
          exact ⟨s', q1, q2⟩
        · obtain ⟨s', q1, q2, -⟩ := between_sound (fun s b hs hn => (ends_sound hg hs hn b).1) (fun s b hs hn => (ends_sound hg hs hn b).2) h2 hne1
          exact ⟨s', q1, q2⟩
        · obtain ⟨s', q1, q2, -⟩ := between_sound (f := textStart e) (g := textEnd e)
            (fun s b hs hn => setCursor_sound hg hs hn (Nat.zero_le _) b)
            (fun s b hs hn => setCursor_sound hg hs hn (by rw [hs.ctrl]) b) h2 hne1
          exact ⟨s', q1, q2⟩
        · exact ⟨s1, rfl, h2⟩
      obtain ⟨s2, h4, h5⟩ := hsel
      rw [h4]
      exact ⟨_, rfl, h5.withDrag true⟩
    · obtain ⟨s1, h1, h2, h3⟩ := recalc_sound hg h.mode h.small h.cursor h.sel
      have hne1 : s1.shown e ≠ [] := by
        obtain ⟨s', g1, -, g3⟩ := recalc_shows hg h.small
        have := Option.some.inj (g1.symm.trans h1)
        rw [← this, g3]
        exact hne
      rw [h1]
      simp only
      obtain ⟨s2, h4, h5, h6⟩ := toMouse_sound hg h2 hne1 x y shift
      rw [h4]
      exact focus_sound hg (h5.withDrag true)
  | release =>
    refine ok ?_
    simp only [handle]
    split
    · exact ⟨_, rfl, h.withDrag false⟩
    · exact same
  | move x y =>
    refine ok ?_
    have hne : s.shown e ≠ [] := by simpa [Input.moves] using hmv
    simp only [handle]
    split
    · exact drop3 (toMouse_sound hg h hne x y true)
    · exact same
  | char c =>
    refine ok ?_
    simp only [handle]
    split
    · rename_i hfe
      simp only [Bool.and_eq_true] at hfe
      have := utf8Encode_length c
      simp only [growth] at hgrow
      exact ok2 (insertTyped_sound hg h (hview hfe.1 (Or.inl hfe.2)) (by omega))
    · exact same
  | focus => exact ok (focus_sound hg h)
  | blur => exact blur_valid hg h
  | up shift =>
    refine ok ?_
    have hne : s.shown e ≠ [] := by simpa [Input.moves] using hmv
    simp only [handle, key]
    split
    · exact drop3 (lines_sound hg h hne shift).2
    · exact same
  | down shift =>
    refine ok ?_
    have hne : s.shown e ≠ [] := by simpa [Input.moves] using hmv
    simp only [handle, key]
    split
    · exact drop3 (lines_sound hg h hne shift).1
    · exact same
  | left shift ctrl =>
    refine ok ?_
    have hne : s.shown e ≠ [] := by simpa [Input.moves] using hmv
    simp only [handle, key]
    split
    · split
      · exact drop3 (words_sound hg h hne shift).2
      · exact drop3 (prevCharacter_sound hg h hne shift)
    · exact same
  | right shift ctrl =>
    refine ok ?_
    have hne : s.shown e ≠ [] := by simpa [Input.moves] using hmv
    simp only [handle, key]
    split
    · split
      · exact drop3 (words_sound hg h hne shift).1
      · exact drop3 (nextCharacter_sound hg h hne shift)
    · exact same
  | home shift ctrl =>
    refine ok ?_
    have hne : s.shown e ≠ [] := by simpa [Input.moves] using hmv
    simp only [handle, key]
    split
    · split
      · exact drop3 (setCursor_sound hg h hne (Nat.zero_le _) shift)
      · exact drop3 (ends_sound hg h hne shift).1
    · exact same
  | «end» shift ctrl =>
    refine ok ?_
    have hne : s.shown e ≠ [] := by simpa [Input.moves] using hmv
    simp only [handle, key]
    split
    · split
      · exact drop3 (setCursor_sound hg h hne (by rw [h.ctrl]) shift)
      · exact drop3 (ends_sound hg h hne shift).2
    · exact same
  | backspace ctrl =>
    refine ok ?_
    simp only [handle, key]
    split
    · rename_i hfoc
      have hp := hview hfoc (hedit rfl)
      have hsh := shown_plain (e := e) hp
      unfold TextBox.backspace
      split
      · obtain ⟨s', h1, h2, -⟩ := removeHighlighted_sound hg h hp
        exact ⟨s', h1, h2⟩
      · split
        · rename_i hpos
          have hc := h.cursor
          have hne : s.shown e ≠ [] := by
            intro h0; rw [h0] at hc; simp at hc; omega
          have hb : ∃ s', (if ctrl = true then TextBox.prevWord e s false else TextBox.prevCharacter e s false) = some s' ∧ Sound e s' ∧
              s'.text = s.text ∧ s'.showsRich = false ∧ s'.cursor.1 ≤ s.cursor.1 ∧ s'.sel = none := by
            obtain ⟨B, hB⟩ := hg.breaks s.ctrl
            split
            · obtain ⟨s', q1, q2, q3⟩ := (words_sound hg h hne false).2
              refine ⟨s', q1, q2, by rw [q3], by rw [q3.showsRich]; exact hp, ?_⟩
              unfold TextBox.prevWord at q1
              obtain ⟨q, hq, hw⟩ := C51_prev_word hB (hg.spaces s.ctrl) s.cursor
              rw [hq] at q1
              obtain ⟨h4, h5⟩ := setCursor_fields q1
              refine ⟨?_, h5 rfl⟩
              have hcur : s'.cursor = q := by rw [h4]
              rw [hcur]
              rcases hw with ⟨hs, -, -⟩ | ⟨-, ⟨rfl, -⟩ | ⟨rfl, -⟩⟩
              · exact Nat.le_of_lt hs.2.1
              · exact Nat.zero_le _
              · exact Nat.le_refl _
            · obtain ⟨s', q1, q2, q3⟩ := prevCharacter_sound hg h hne false
              refine ⟨s', q1, q2, by rw [q3], by rw [q3.showsRich]; exact hp, ?_⟩
              unfold TextBox.prevCharacter at q1
              obtain ⟨h4, h5⟩ := setCursor_fields q1
              refine ⟨?_, h5 rfl⟩
              rw [h4]
              simp only
              rcases C50_prev hB s.cursor with ⟨q, -, hlt, -, he⟩ | ⟨-, he⟩
              · rw [he]; exact Nat.le_of_lt hlt
              · rw [he]
          obtain ⟨s1, h1, h2, h3, h3', h4, h5⟩ := hb
          rw [h1]
          rw [hsh] at hc
          exact ok2 (removeText_sound hg h2.mode h3' h2.small h4 (by rw [h3]; exact hc) (Nat.le_refl _) h5)
        · exact same
    · exact same
  | delete ctrl =>
    refine ok ?_
    simp only [handle, key]
    split
    · rename_i hfoc
      have hp := hview hfoc (hedit rfl)
      have hsh := shown_plain (e := e) hp
      unfold TextBox.delete
      split
      · obtain ⟨s', h1, h2, -⟩ := removeHighlighted_sound hg h hp
        exact ⟨s', h1, h2⟩
      · split
        · rename_i hpos
          have hne : s.shown e ≠ [] := by
            rw [hsh]; intro h0; rw [h0] at hpos; simp at hpos
          have hb : ∃ s', (if ctrl = true then TextBox.nextWord e s false else TextBox.nextCharacter e s false) = some s' ∧ Sound e s' ∧
              s'.text = s.text ∧ s'.showsRich = false ∧ s.cursor.1 ≤ s'.cursor.1 ∧ s'.sel = none := by
            obtain ⟨B, hB⟩ := hg.breaks s.ctrl
            split
            · obtain ⟨s', q1, q2, q3⟩ := (words_sound hg h hne false).1
              refine ⟨s', q1, q2, by rw [q3], by rw [q3.showsRich]; exact hp, ?_⟩
              unfold TextBox.nextWord at q1
              obtain ⟨q, hq, hw⟩ := C51_next_word hB (cursor := s.cursor) (by rw [hg.size, h.ctrl]; exact h.cursor)
              rw [hq] at q1
              obtain ⟨h4, h5⟩ := setCursor_fields q1
              refine ⟨?_, h5 rfl⟩
              have hcur : s'.cursor = q := by rw [h4]
              rw [hcur]
              rcases hw with ⟨hs, -, -⟩ | ⟨-, ⟨rfl, h0⟩ | ⟨rfl, -⟩⟩
              · exact Nat.le_of_lt hs.2.1
              · exact Nat.le_of_lt h0
              · exact Nat.le_refl _
            · obtain ⟨s', q1, q2, q3⟩ := nextCharacter_sound hg h hne false
              refine ⟨s', q1, q2, by rw [q3], by rw [q3.showsRich]; exact hp, ?_⟩
              unfold TextBox.nextCharacter at q1
              obtain ⟨h4, h5⟩ := setCursor_fields q1
              refine ⟨?_, h5 rfl⟩
              rw [h4]
              simp only
              rcases C50_next hB s.cursor with ⟨q, hq, he⟩ | ⟨-, he⟩
              · rw [he]; exact Nat.le_of_lt hq.2.1
              · rw [he]
          obtain ⟨s1, h1, h2, h3, h3', h4, h5⟩ := hb
          rw [h1]
          have hc1 := h2.cursor
          rw [shown_plain h3'] at hc1
          exact ok2 (removeText_sound hg (s := { s1 with cursor := s.cursor }) h2.mode h3' h2.small h4 hc1 (Nat.le_refl _) h5)
        · exact same
    · exact same
  | enter =>
    simp only [handle, key]
    split
    · rename_i hfoc
      have hp := hview hfoc (hedit rfl)
      unfold TextBox.enter
      split
      · obtain ⟨s1, h1, h2, h3, -, h4⟩ := removeHighlighted_sound hg h hp
        rw [h1]
        have : (utf8Encode 10).length = 1 := rfl
        simp only [growth] at hgrow
        exact ok (ok2 (insertTyped_sound hg h2 h4 (by omega)))
      · exact blur_valid hg h
    · exact ok same
  | tab =>
    refine ok ?_
    simp only [handle, key]
    split
    · rename_i hfoc
      have hp := hview hfoc (hedit rfl)
      have : (utf8Encode 9).length = 1 := rfl
      simp only [growth] at hgrow
      exact ok2 (insertTyped_sound hg h hp (by omega))
    · exact same
  | cut =>
    refine ok ?_
    simp only [handle, key]
    split
    · rename_i hfoc
      unfold TextBox.cut
      split
      · exact same
      · rename_i hed
        have hp := hview hfoc (Or.inl (by simpa using hed))
        obtain ⟨s1, h1, h2, h5⟩ := copy_sound hg h
        rw [h1]
        obtain ⟨s', h3, h4, -⟩ := removeHighlighted_sound hg h2 (h5.trans hp)
        exact ⟨s', h3, h4⟩
    · exact same
  | copy =>
    refine ok ?_
    simp only [handle, key]
    split
    · obtain ⟨s', h1, h2, -⟩ := copy_sound hg h
      exact ⟨s', h1, h2⟩
    · exact same
  | paste =>
    refine ok ?_
    simp only [handle, key]
    split
    · rename_i hfoc
      unfold TextBox.paste
      split
      · exact same
      · rename_i hed
        have hp := hview hfoc (Or.inl (by simpa using hed))
        obtain ⟨s1, h1, h2, h3, h4, h5⟩ := removeHighlighted_sound hg h hp
        rw [h1]
        simp only
        cases hcl : s.clip with
        | none => exact absurd hcl (hpaste rfl)
        | some t =>
          rw [h4, hcl]
          simp only [growth, hcl, Option.getD_some] at hgrow
          exact ok2 (insertText_sound hg h2 h5 (by omega))
    · exact same
  | selectAll =>
    refine ok ?_
    have hne : s.shown e ≠ [] := by simpa [Input.moves] using hmv
    simp only [handle, key]
    split
    · obtain ⟨s', q1, q2, -⟩ := between_sound (f := textStart e) (g := textEnd e)
        (fun s b hs hn => setCursor_sound hg hs hn (Nat.zero_le _) b)
        (fun s b hs hn => setCursor_sound hg hs hn (by rw [hs.ctrl]) b) h hne
      exact ⟨s', q1, q2⟩
    · exact same

theorem handle_valid {e : BoxEnv φ} (hg : e.Good) {s : TextBox φ} (h : Valid e s) {i : Input} (hi : Allowed e s i) :
    ∃ s', handle e s i = some s' ∧ Valid e s' := by
  rcases h with h | h
  · exact handle_sound hg h hi
  · have hf := h.mode.2.2
    have same : ∃ s', some s = some s' ∧ Valid e s' := ⟨s, rfl, Or.inr h⟩
    cases i with
    | press x y shift clicks =>
      have hne : s.shown e ≠ [] := by simpa [Input.moves] using hi.1
      obtain ⟨s', h1, h2⟩ := h.press hg hne x y shift clicks
      exact ⟨s', h1, Or.inl h2⟩
    | focus =>
      obtain ⟨s', h1, h2⟩ := h.focus hg
      exact ⟨s', h1, Or.inl h2⟩
    | blur => simp only [handle, TextBox.blur, hf]; exact same
    | release => simp only [handle, hf]; exact same
    | move x y => simp only [handle, hf]; exact same
    | char c => simp only [handle, hf]; exact same
    | _ => simp only [handle, hf]; exact same

end TextBox

/-- C52 (partial: no movement or click while nothing is shown, no Backspace, Delete,
Enter or Tab in a read-only rich text, no pasting from an empty clipboard).  After
every sequence of inputs to a box, with or without markup, editable or not, the
behaviour is defined and cursor and selection are inside the text. -/
theorem C52_inside_partial {e : BoxEnv φ} (hg : e.Good) : ∀ (is : List Input) {s : TextBox φ}, Valid e s →
    (∀ pre i post s', is = pre ++ i :: post → run e s pre = some s' → Allowed e s' i) →
    ∃ s', run e s is = some s' ∧ Valid e s' ∧ s'.cursor.1 ≤ s'.text.length ∧ ∀ c, s'.sel = some c → c.1 ≤ s'.text.length
  | [], s, h, _ => ⟨s, rfl, h, h.cursor hg⟩
  | i :: is, s, h, hall => by
    obtain ⟨s1, h1, h2⟩ := handle_valid hg h (hall [] i is s rfl rfl)
    obtain ⟨s', h3, h4⟩ := C52_inside_partial hg is h2 (fun pre j post s' he hr => hall (i :: pre) j post s' (by rw [he]; rfl) (by
      rw [run, h1]; exact hr))
    exact ⟨s', by rw [run, h1]; exact h3, h4⟩

/-- A box as it is made. -/
theorem sound_new {e : BoxEnv φ} (hg : e.Good) : Sound e {} where
  mode := fun h => by cases h
  ctrl := rfl
  small := hg.limit.1
  cursor := Nat.le_refl _
  sel := fun c hc => by cases hc
  laid := fun h => absurd rfl h

/-! ### A concrete environment -/

/-- One line of glyphs, each 5 wide. -/
def monoGlyphs (n : Nat) : List GlyphSpec := (List.range n).map fun i => ⟨1, i, 5 * i, 0⟩
def monoRun (n : Nat) : RunSpec Nat := ⟨0, monoGlyphs n, 5 * n, 0, 0, n, 0, false⟩
def monoLayout (n : Nat) : Layout Nat :=
  (execLayout {} [.run 0 (monoGlyphs n) (5 * n) 0 0 n false, .line 10 8]).getD {}

/-- Every byte is a grapheme and a glyph, all on one line. -/
def monoEnv : BoxEnv Nat where
  breaks t := asciiEnv (t.map UInt8.toNat)
  content t := t
  layout _ t := monoLayout t.length
  width := 100
  align := .left
  emptyHeight := 10

theorem monoGlyphs_get (n i : Nat) : (monoGlyphs n)[i]? = if i < n then some ⟨1, i, 5 * i, 0⟩ else none := by
  unfold monoGlyphs
  rw [List.getElem?_map]
  split
  · rename_i h
    rw [List.getElem?_range h]; rfl
  · rename_i h
    rw [List.getElem?_eq_none (by simpa using h)]; rfl

theorem monoRun_xs (n i : Nat) : (monoRun n).xs[i]? = if i ≤ n then some ((5 * i : Nat) : Rat) else none := by
  have hlen : ((monoRun n).glyphs.map (·.x)).length = n := by simp [monoRun, monoGlyphs]
  unfold RunSpec.xs
  split
  · rename_i h
    rcases Nat.lt_or_ge i n with hlt | hge
    · rw [List.getElem?_append_left (by omega), List.getElem?_map]
      simp only [monoRun, monoGlyphs_get, hlt, if_true, Option.map_some]
      norm_num
    · obtain rfl : i = n := by omega
      rw [List.getElem?_append_right (by omega), hlen]
      simp [monoRun]
  · rename_i h
    rw [List.getElem?_eq_none]
    rw [List.length_append, hlen]; simp only [List.length_cons, List.length_nil]; omega

theorem monoRun_ltr {n : Nat} : LtrRun (monoRun n) where
  ltr := rfl
  sorted := by
    intro i g h hg hh
    simp only [monoRun, monoGlyphs_get] at hg hh
    split at hg
    · split at hh
      · cases hg; cases hh; simp only; omega
      · cases hh
    · cases hg
  first := by
    intro g hg
    simp only [monoRun, monoGlyphs_get] at hg
    split at hg
    · cases hg; rfl
    · cases hg
  empty := by
    intro hn
    have : (monoRun n).glyphs.length = n := by simp [monoRun, monoGlyphs]
    rw [hn] at this
    show 0 = n
    simpa using this
  below := by
    intro g hg
    obtain ⟨i, hi⟩ := List.mem_iff_getElem?.1 hg
    simp only [monoRun, monoGlyphs_get] at hi
    split at hi
    · cases hi; assumption
    · cases hi
  mono := by
    intro i a b ha hb
    rw [monoRun_xs] at ha hb
    split at ha
    · split at hb
      · cases ha; cases hb
        exact_mod_cast (show 5 * i ≤ 5 * (i + 1) by omega)
      · cases hb
    · cases ha

theorem monoLayout_laid {n : Nat} (h : n < 2147483647) : LaidOut (monoLayout n) n := by
  have h0 : Draft.steps {} [.run 0 (monoGlyphs n) (5 * n) 0 0 n false, .line 10 8] =
      some (⟨[⟨[monoRun n], 10, 8⟩], [], 0⟩ : Draft Nat) := rfl
  obtain ⟨L, hL, hs⟩ := C19_stores _ _ h0
  have e : monoLayout n = L := by unfold monoLayout; rw [hL]; rfl
  rw [e]
  refine ⟨_, _, hs, by simp, ?_, ?_, ?_⟩
  · intro l hl
    simp only [List.mem_singleton] at hl
    subst hl; simp
  · have := hs.pos_length
    have hg : (monoRun n).glyphs.length = n := by simp [monoRun, monoGlyphs]
    simp [allRuns, glyphCount, hg] at this
    omega
  · intro l hl
    simp only [List.mem_singleton] at hl
    subst hl
    refine ⟨⟨?_, ?_, ?_⟩, ?_⟩
    · intro r hr
      simp only [List.mem_singleton] at hr
      subst hr
      exact Or.inl monoRun_ltr
    · intro i r s _ hs
      have := getElem?_lt hs
      simp at this
    · intro r hr
      simp only [List.mem_singleton] at hr
      subst hr
      show n < _
      omega
    · intro r hr
      simp only [List.mem_singleton] at hr
      subst hr
      exact Nat.le_refl _

theorem monoEnv_good : monoEnv.Good where
  limit := ⟨by decide, by decide⟩
  size := fun t => by simp [monoEnv, asciiEnv]
  breaks := fun t => ⟨_, asciiEnv_breaks _⟩
  spaces := fun t => asciiEnv_space _
  layout := fun t _ h => monoLayout_laid h
  content := fun _ => Nat.le_refl _
  rich := fun t _ h => monoLayout_laid h

/-- The inputs of a session: type "ab c", go back a word, select to the end of the
line, replace it by "d", click, select everything, cut, paste. -/
example : (run monoEnv {} [.focus, .char 97, .char 98, .char 32, .char 99, .left false true, .end true false, .char 100,
      .press 3 2 false 0, .release, .selectAll, .cut, .paste, .delete false, .backspace true]).map (fun s => (s.text, s.cursor, s.sel)) =
    some (b!"ab ", (3, .default), none) := by decide +kernel

/-! ### Violations -/

/-- C52 is false as stated: in every environment the behaviour of a click into a new
text box is undefined (the layout has no lines, `calc_cursor_pixel_pos` reads the
first one), and so is that of an arrow key in it. -/
theorem C52_empty_violated (e : BoxEnv φ) (x y : Rat) (shift : Bool) (clicks : Nat) :
    run e {} [.press x y shift clicks] = none ∧ run e {} [.focus, .press x y shift clicks] = none ∧
      run e {} [.focus, .right shift false] = none ∧ run e {} [.focus, .selectAll] = none := by
  have hnone : ∀ (c : Nat) (a : Affinity), ({} : Layout φ).cursorPixelPos e.width e.align c a = none := by
    intro c a
    unfold Layout.cursorPixelPos Layout.runContaining
    rw [Layout.runContainingFrom]
    rfl
  have hset : ∀ (s : TextBox φ) (pos : Cursor) (b : Bool), s.layout = {} → setCursor e s pos b = none := by
    intro s pos b h
    unfold setCursor
    rw [h]
    simp only [hnone]
  have hmouse : ∀ (s : TextBox φ), s.layout = {} → toMouse e s x y shift = none := by
    intro s h
    unfold toMouse
    split
    · rfl
    · exact hset s _ _ h
  have hfoc : TextBox.focus e {} = some { focused := true, info := ⟨0, 0, e.emptyHeight, 0⟩ } := rfl
  refine ⟨?_, ?_, ?_, ?_⟩
  · simp only [run, handle]
    have hr : recalc e {} = some { info := ⟨0, 0, e.emptyHeight, 0⟩ } := rfl
    unfold press
    simp only [Bool.false_eq_true, if_false, hr]
    rw [hmouse _ rfl]
  · simp only [run, handle, hfoc]
    unfold press
    simp only [if_true]
    rw [hmouse _ rfl]
  · simp only [run, handle, hfoc, key, Bool.false_eq_true, if_false, if_true]
    unfold TextBox.nextCharacter
    rw [hset _ _ _ rfl]
  · simp only [run, handle, hfoc, key, if_true]
    unfold selectBetween textStart
    rw [hset _ _ _ rfl]

/-- C52 is false as stated: when everything is deleted the layout of the old text
stays, and End leads to a position in it: type "ab", select everything, Backspace,
End.  Typing and Backspace then make `substr` throw. -/
theorem C52_stale_violated : ∃ (e : BoxEnv Nat), e.Good ∧
    (∃ s, run e {} [.focus, .char 97, .char 98, .selectAll, .backspace false, .end false false] = some s ∧ s.text.length < s.cursor.1) ∧
    run e {} [.focus, .char 97, .char 98, .selectAll, .backspace false, .end false false, .char 120, .backspace false] = none := by
  have h : (run monoEnv {} [.focus, .char 97, .char 98, .selectAll, .backspace false, .end false false]).map (fun s => (s.text, s.cursor.1)) =
      some ([], 2) := by decide +kernel
  have h2 : (run monoEnv {} [.focus, .char 97, .char 98, .selectAll, .backspace false, .end false false, .char 120, .backspace false]).isNone = true := by
    decide +kernel
  refine ⟨monoEnv, monoEnv_good, ?_, Option.isNone_iff_eq_none.1 h2⟩
  obtain ⟨s, hs, he⟩ := Option.map_eq_some_iff.1 h
  refine ⟨s, hs, ?_⟩
  have e1 : s.text = [] := congrArg Prod.fst he
  have e2 : s.cursor.1 = 2 := congrArg Prod.snd he
  rw [e1, e2]
  decide

/-- C53 is false as stated: a click during which the mouse moves leaves a selection
of nothing.  Backspace then removes nothing ("ab" stays, with the cursor at 1), and
of two characters typed the second replaces the first: "ayb". -/
theorem C53_collapsed_violated : ∃ (e : BoxEnv Nat), e.Good ∧
    (run e {} [.focus, .char 97, .char 98, .press 5 2 false 0, .move 5 2, .release, .backspace false]).map (fun s => (s.text, s.cursor.1)) =
      some (b!"ab", 1) ∧
    (run e {} [.focus, .char 97, .char 98, .press 5 2 false 0, .move 5 2, .release, .char 120, .char 121]).map (·.text) = some b!"ayb" :=
  ⟨monoEnv, monoEnv_good, by decide +kernel, by decide +kernel⟩

/-- C53 is false as stated: the clipboard ends at a NUL, so cutting and pasting does
not restore a text with one. -/
theorem C53_nul_violated : ∃ (e : BoxEnv Nat), e.Good ∧
    ((setText e {} [97, 0, 98]).bind fun s => run e s [.focus, .selectAll, .cut, .paste]).map (·.text) = some [97] :=
  ⟨monoEnv, monoEnv_good, by decide +kernel⟩

/-- C53: pasting without a text on the clipboard is undefined (a string is made of
the null pointer), in every state and environment. -/
theorem C53_paste_violated (e : BoxEnv φ) (s : TextBox φ) (hfoc : s.focused = true) (hed : s.editable = true) (hsel : s.sel = none)
    (hclip : s.clip = none) : handle e s .paste = none := by
  simp only [handle, hfoc, if_true, key, TextBox.paste, hed, Bool.not_true, Bool.false_eq_true, if_false, removeHighlighted, hsel, hclip]

/-- C54 is false as stated: Backspace, Delete, Enter and Tab edit a read-only box. -/
theorem C54_violated : ∃ (e : BoxEnv Nat), e.Good ∧
    ((setText e { editable := false } b!"ab").bind fun s => run e s [.focus, .end false false, .backspace false]).map (·.text) = some b!"a" ∧
    ((setText e { editable := false } b!"ab").bind fun s => run e s [.focus, .delete false]).map (·.text) = some b!"b" ∧
    ((setText e { editable := false } b!"ab").bind fun s => run e s [.focus, .tab]).map (·.text) = some [9, 97, 98] ∧
    ((setText e { editable := false } b!"ab").bind fun s => run e s [.focus, .enter]).map (·.text) = some [10, 97, 98] :=
  ⟨monoEnv, monoEnv_good, by decide +kernel, by decide +kernel, by decide +kernel, by decide +kernel⟩

/-- As `monoEnv`, with the markup of one text understood. -/
def richEnv : BoxEnv Nat :=
  { monoEnv with
    content := fun t => if t = b!"<b>x</b>" then b!"x" else t
    layout := fun rich t => monoLayout (if rich && t == b!"<b>x</b>" then 1 else t.length) }

/-- C54: worse, in a read-only box of rich text the positions are those of the
displayed text but the edit is made in the markup: with the cursor behind the "x" of
`<b>x</b>` Backspace removes the first byte. -/
theorem C54_rich_violated :
    ((setText richEnv { editable := false, rich := true } b!"<b>x</b>").bind fun s => run richEnv s [.focus, .end false false, .backspace false]).map
      (·.text) = some b!"b>x</b>" := by decide +kernel

theorem richEnv_good : richEnv.Good where
  limit := ⟨by decide, by decide⟩
  size := monoEnv_good.size
  breaks := monoEnv_good.breaks
  spaces := monoEnv_good.spaces
  layout := fun t _ h => by simpa [richEnv] using monoLayout_laid h
  content := fun t => by
    simp only [richEnv]
    split
    · rename_i h
      rw [h]; decide
    · exact Nat.le_refl _
  rich := fun t _ h => by
    simp only [richEnv, Bool.true_and, beq_iff_eq]
    split
    · exact monoLayout_laid (by decide)
    · exact monoLayout_laid h

/-- C53 is false as stated for read-only rich text: the selection is of what is shown,
the copied bytes are those of the source.  Of "<b>x</b>", shown as "x", Select All
and Copy give "<". -/
theorem C53_copy_rich_violated : richEnv.Good ∧
    ((setText richEnv { editable := false, rich := true } b!"<b>x</b>").bind fun s => run richEnv s [.focus, .selectAll, .copy]).map
      (fun s => (s.text, s.clip)) = some (b!"<b>x</b>", some b!"<") :=
  ⟨richEnv_good, by decide +kernel⟩

/-- A session in an editable rich text, as `C52_inside_partial` covers it: a click
behind the shown "x" leaves the caret inside the first tag of the source. -/
example : ((setText richEnv { rich := true } b!"<b>x</b>").bind fun s => run richEnv s [.press 5 2 false 0, .release, .char 121, .blur]).map
    (fun s => (s.text, s.cursor.1, s.ctrl)) = some (b!"<yb>x</b>", 2, b!"<yb>x</b>") := by decide +kernel

end RichText
