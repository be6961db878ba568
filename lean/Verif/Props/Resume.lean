import Verif.Props.ShiftKeys
/-!
C159: leaving a text box and coming back.
-/
namespace RichText
variable {φ : Type}
open TextBox
namespace TextBox

/-- The inputs that give a box the focus: a press of the button in it, and the focus itself. -/
def Input.enters : Input → Bool
  | .press .. => true
  | .focus => true
  | _ => false

/-- A box without the focus ignores the others. -/
theorem run_unfocused {e : BoxEnv φ} {s : TextBox φ} (hf : s.focused = false) : ∀ (is : List Input), (∀ i ∈ is, i.enters = false) → run e s is = some s
  | [], _ => rfl
  | i :: is, h => by
    have h1 : handle e s i = some s := by
      have := h i (by simp)
      cases i <;> first
        | (cases this; done)
        | simp only [handle, hf, TextBox.blur, Bool.false_and, Bool.false_eq_true, if_false]
    simp only [run, h1]
    exact run_unfocused hf is (fun j hj => h j (by simp [hj]))

/-- Leaving and coming back by the focus. -/
theorem leave_return {e : BoxEnv φ} (hg : e.Good) {s : TextBox φ} (h : Sound e s) (hf : s.focused = true) {is : List Input}
    (his : ∀ i ∈ is, i.enters = false) :
    ∃ s', run e s (.blur :: is ++ [.focus]) = some s' ∧ Sound e s' ∧ s'.focused = true ∧ s'.sel = none ∧ s'.text = s.text ∧ s'.cursor = s.cursor ∧
      s'.editable = s.editable ∧ s'.clip = s.clip ∧ s'.rich = s.rich := by
  obtain ⟨s1, a1, a2⟩ := handle_sound hg h (i := .blur) ⟨.inr rfl, nofun, nofun, h.small⟩
  obtain ⟨b1, b2, -, b4, b5⟩ := (C64_focus a1).2.1 rfl hf
  have hb : s1 = { s with focused := false, sel := none, drag := false, ctrl := s1.ctrl, layout := s1.layout, info := s1.info } := by
    have := a1
    simp only [handle, TextBox.blur, hf, if_true] at this
    have := recalc_fields this
    rw [this]
  obtain ⟨s2, c1, c2⟩ := handle_valid hg a2 (i := .focus) ⟨.inr rfl, nofun, nofun, by rw [b4]; exact h.small⟩
  obtain ⟨d1, d2, d3⟩ := (C64_focus c1).2.2 rfl
  have hc : s2 = { s1 with focused := true, ctrl := s2.ctrl, layout := s2.layout, info := s2.info } := by
    have := c1
    simp only [handle, TextBox.focus, b1, Bool.false_eq_true, if_false] at this
    have := recalc_fields this
    rw [this]
  refine ⟨s2, ?_, c2.sound d1, d1, ?_, d2.trans b4, d3.trans b5, ?_, ?_, ?_⟩
  · rw [List.cons_append, run, a1]
    show run e s1 (is ++ [.focus]) = some s2
    rw [run_append, run_unfocused b1 is his]
    simp only [Option.bind_some, run, c1]
  · rw [hc]; exact b2
  · rw [hc, hb]
  · rw [hc, hb]
  · rw [hc, hb]

end TextBox

section
variable {e : BoxEnv φ}

/-- C159: a text box keeps its place while another one has the focus: whatever is done in between, what is typed after it got the focus again stands
where the caret was when it lost it; what was selected is left alone. -/
theorem C159_resumes (hg : e.Good) {s : TextBox φ} (h : Sound e s) (hf : s.focused = true) (he : s.editable = true) {is : List Input}
    (his : ∀ i ∈ is, i.enters = false) (cs : List Nat) (hl : s.text.length + 4 * cs.length < e.limit) :
    ∃ s', run e s (.blur :: is ++ [.focus] ++ cs.map .char) = some s' ∧ Editing e s' ∧
      s'.text = s.text.take s.cursor.1 ++ cs.flatMap utf8Encode ++ s.text.drop s.cursor.1 := by
  obtain ⟨s1, a1, a2, a3, a4, a5, a6, a7, -, -⟩ := leave_return hg h hf his
  obtain ⟨s2, b1, b2, -, b3⟩ := Editing.types hg cs (s := s1) ⟨a2, a3, a7.trans he, a4⟩ (by rw [a5]; exact hl)
  exact ⟨s2, by rw [run_append, a1]; exact b1, b2, by rw [b3, a5, a6]⟩

/-- C159: with nothing selected the text is the one typed without a break. -/
theorem C159_unbroken (hg : e.Good) {s : TextBox φ} (h : Editing e s) {is : List Input} (his : ∀ i ∈ is, i.enters = false) (cs ds : List Nat)
    (hl : s.text.length + 4 * (cs.length + ds.length) < e.limit) :
    ∃ s1 s2, run e s (cs.map .char ++ (.blur :: is ++ [.focus]) ++ ds.map .char) = some s1 ∧ run e s ((cs ++ ds).map .char) = some s2 ∧
      s1.text = s2.text := by
  obtain ⟨s0, a1, a2, -, a3⟩ := Editing.types hg cs h (by omega)
  have hcur : s0.cursor.1 = s.cursor.1 + (cs.flatMap utf8Encode).length := by
    rcases cs with _ | ⟨c, cs⟩
    · simp only [List.map_nil, run] at a1
      cases a1
      simp
    · have := Editing.typed_insert hg (c :: cs) h (by simp) (by simp only [List.length_cons] at hl ⊢; omega)
      rw [a1] at this
      rw [insertText_fields this.symm]
  have hlen : (cs.flatMap utf8Encode).length ≤ 4 * cs.length := by
    clear a1 a3 hcur hl
    induction cs with
    | nil => simp
    | cons c cs ih =>
      rw [List.flatMap_cons, List.length_append, List.length_cons]
      have : (utf8Encode c).length ≤ 4 := by
        unfold utf8Encode
        split
        · simp
        · split
          · simp
          · split <;> simp
      omega
  have hle := h.cursor
  have hl0 : s0.text.length + 4 * ds.length < e.limit := by
    rw [a3]
    simp only [List.length_append, List.length_take, List.length_drop]
    omega
  obtain ⟨s1, b1, -, b3⟩ := C159_resumes hg a2.sound a2.focused a2.editable his ds hl0
  obtain ⟨s2, c1, -, -, c3⟩ := Editing.types hg (cs ++ ds) h (by rw [List.length_append]; exact hl)
  refine ⟨s1, s2, ?_, c1, ?_⟩
  · rw [List.append_assoc, run_append, a1]
    exact b1
  · rw [b3, c3, a3, hcur, List.flatMap_append]
    have e1 : s.cursor.1 = (s.text.take s.cursor.1).length := by rw [List.length_take]; omega
    have e2 : s.cursor.1 + (cs.flatMap utf8Encode).length = (s.text.take s.cursor.1 ++ cs.flatMap utf8Encode).length := by
      rw [List.length_append, ← e1]
    rw [e2, List.take_left, List.drop_left]
    simp only [List.append_assoc]

/-! The hypotheses are met: `ab`, Left, and a character and keys while the box has not got the focus; then `x`; and with `ab` selected. -/

example : (run marksBox {} ([.focus, .char 97, .char 98, .left false false] ++ (Input.blur :: [.char 99, .backspace false, .release] ++ [.focus]) ++
    [.char 120])).map (·.text) = some b!"axb" := by decide +kernel

example : (run marksBox {} ([.focus, .char 97, .char 98, .selectAll] ++ (Input.blur :: [] ++ [.focus]) ++ [.char 120])).map (·.text) = some b!"abx" := by
  decide +kernel

end
end RichText
