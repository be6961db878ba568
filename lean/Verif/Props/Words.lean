import Verif.Props.PutBack
/-!
C149: Ctrl+Left and Ctrl+Right walk from word to word.
-/
namespace RichText
variable {φ : Type}

/-- `next_word` from the start of a word goes to a place from which `prev_word` comes back. -/
theorem IsWord.next_prev {b : BreakEnv} {B : Nat → Prop} {w v : Nat} (hB : Breaks b B) (hlbs : ∀ c, isLineBreak c = true → b.space c = true)
    (h : IsWord b B w v) (x : Affinity) : ∃ q, b.nextWord (w, x) = .some q ∧ w < q.1 ∧ b.prevWord q = .some (w, .default) := by
  obtain ⟨q, q1, q2, -, q4, -⟩ := h.next hB hlbs x
  have hlt : w < q.1 := by have := h.some; omega
  refine ⟨q, q1, hlt, ?_⟩
  have hw : WordStart b B q.1 w := ⟨h.start, hlt, .inr ⟨h.inner w h.start (Nat.le_refl _) h.some, h.before⟩⟩
  obtain ⟨a, a1, ⟨a2, a3, a4⟩ | ⟨a2, -⟩⟩ := C51_prev_word hB hlbs q
  · have hle := a4 w hw
    have ha : a.1 = w := by
      refine (Nat.lt_or_ge w a.1).elim (fun hwa => ?_) (fun hge => Nat.le_antisymm hge hle)
      obtain ⟨b1, b2, b3⟩ := a2
      rcases Nat.lt_or_ge a.1 v with hav | hav
      · rcases b3 with b3 | ⟨-, b3 | ⟨r, r1, ⟨-, r2, r3⟩, r4⟩⟩
        · exact absurd (space_of_break hlbs b3) (h.inner a.1 b1 hle hav)
        · omega
        · have : w ≤ r := (Nat.lt_or_ge r w).elim (fun hr => by have := r3 w h.start hr; omega) id
          exact absurd r4 (h.inner r r1 this (by omega))
      · obtain ⟨c1, c2⟩ := q4 a.1 b1 hav b2
        rcases b3 with b3 | ⟨b3, -⟩
        · exact absurd b3 c2
        · exact absurd c1 b3
    rw [a1, ← ha, ← a3]
  · exact absurd hw (a2 w)

namespace TextBox

/-- Ctrl+Left or Ctrl+Right: which way the word is looked for. -/
def wordKey (right shift : Bool) : Input := if right then .right shift true else .left shift true

/-- Where Ctrl+Left and Ctrl+Right go. -/
theorem word_step {e : BoxEnv φ} (hg : e.Good) {s : TextBox φ} (h : Sound e s) (hf : s.focused = true) (hne : s.shown e ≠ []) (right shift : Bool) :
    ∃ s', handle e s (wordKey right shift) = some s' ∧ Sound e s' ∧ Went s s' shift ∧
      (if right then (e.breaks s.ctrl).nextWord s.cursor else (e.breaks s.ctrl).prevWord s.cursor) = some s'.cursor := by
  obtain ⟨s', h1, h2⟩ := handle_sound hg h (i := wordKey right shift)
    ⟨.inl hne, by cases right <;> exact nofun, by cases right <;> exact nofun, by cases right <;> exact h.small⟩
  have hw : Went s s' shift ∧ (if right then (e.breaks s.ctrl).nextWord s.cursor else (e.breaks s.ctrl).prevWord s.cursor) = some s'.cursor := by
    cases right
    · simp only [wordKey, Bool.false_eq_true, if_false, handle, hf, if_true, key, TextBox.prevWord] at h1 ⊢
      split at h1
      · cases h1
      · rename_i c hc
        obtain ⟨a1, a2, -⟩ := setCursor_went h1
        exact ⟨a1, by rw [hc, a2]⟩
    · simp only [wordKey, handle, hf, if_true, key, TextBox.nextWord] at h1 ⊢
      split at h1
      · cases h1
      · rename_i c hc
        obtain ⟨a1, a2, -⟩ := setCursor_went h1
        exact ⟨a1, by rw [hc, a2]⟩
  refine ⟨s', h1, ?_, hw⟩
  rcases h2 with h2 | h2
  · exact h2
  · have := h2.mode.2.2
    rw [hw.1.1] at this
    simp [hf] at this

/-- What a step does not change. -/
theorem Went.same {e : BoxEnv φ} {s s' : TextBox φ} {shift : Bool} (h : Went s s' shift) :
    s'.text = s.text ∧ s'.ctrl = s.ctrl ∧ s'.focused = s.focused ∧ s'.shown e = s.shown e := by
  rw [h.1]
  exact ⟨rfl, rfl, rfl, rfl⟩

end TextBox

open TextBox

/-- C149: Ctrl+Right from a boundary before a word, pressed often enough, stops at the start of the word, and so does Ctrl+Left from a place behind
its start.  The text stays; with Shift, what was passed is selected from where it was begun. -/
theorem C149_reach {e : BoxEnv φ} (hg : e.Good) (right shift : Bool) (n : Nat) : ∀ {s : TextBox φ}, Sound e s → s.focused = true → s.shown e ≠ [] →
    ∀ {B : Nat → Prop}, Breaks (e.breaks s.ctrl) B → ∀ {w v : Nat}, IsWord (e.breaks s.ctrl) B w v →
    (if right then B s.cursor.1 ∧ s.cursor.1 < w ∧ w ≤ s.cursor.1 + n else w < s.cursor.1 ∧ s.cursor.1 ≤ w + n) →
    ∃ k s', k ≤ n ∧ run e s (List.replicate (k + 1) (wordKey right shift)) = some s' ∧ s'.cursor = (w, .default) ∧ s'.text = s.text ∧
      s'.sel = if shift then some (s.sel.getD s.cursor) else none := by
  induction n with
  | zero => intro s _ _ _ B _ w v _ h; split at h <;> omega
  | succ n ih =>
    intro s h hf hne B hB w v hw hc
    obtain ⟨s1, h1, h2, h3, h4⟩ := word_step hg h hf hne right shift
    obtain ⟨e1, e2, e3, e4⟩ := h3.same (e := e)
    have hsel1 : s1.sel = if shift then some (s.sel.getD s.cursor) else none := by
      cases shift
      · exact h3.2.1 rfl
      · exact h3.2.2 rfl
    have hcs := h.cursor
    rw [← h.ctrl, ← hg.size] at hcs
    -- the step does not go past the start of the word
    have key : s1.cursor = (w, .default) ∨
        (if right then B s1.cursor.1 ∧ s1.cursor.1 < w ∧ w ≤ s1.cursor.1 + n else w < s1.cursor.1 ∧ s1.cursor.1 ≤ w + n) := by
      cases right
      · simp only [Bool.false_eq_true, if_false] at hc h4 ⊢
        have hst : WordStart (e.breaks s.ctrl) B s.cursor.1 w := ⟨hw.start, hc.1, .inr ⟨hw.inner w hw.start (Nat.le_refl _) hw.some, hw.before⟩⟩
        obtain ⟨a, a1, ⟨a2, a3, a4⟩ | ⟨a2, -⟩⟩ := C51_prev_word hB (hg.spaces _) s.cursor
        · rw [h4] at a1
          cases a1
          have h5 := a4 w hst
          have h6 := a2.2.1
          rcases Nat.eq_or_lt_of_le h5 with h7 | h7
          · exact .inl (by rw [h7, ← a3])
          · exact .inr ⟨h7, by omega⟩
        · exact absurd hst (a2 w)
      · simp only [if_true] at hc h4 ⊢
        have hst := hw.stop hc.1 hc.2.1
        obtain ⟨a, a1, ⟨a2, a3, a4⟩ | ⟨a2, -⟩⟩ := C51_next_word hB hcs
        · rw [h4] at a1
          cases a1
          have h5 := a4 w hst
          have h6 := a2.2.1
          rcases Nat.eq_or_lt_of_le h5 with h7 | h7
          · exact .inl (by rw [← h7, ← a3])
          · exact .inr ⟨a2.1, h7, by omega⟩
        · exact absurd hst (a2 w)
    rcases key with key | key
    · exact ⟨0, s1, Nat.zero_le _, by simp [run, h1], key, e1, hsel1⟩
    · rw [← e2] at hB hw
      obtain ⟨k, s', k1, k2, k3, k4, k5⟩ := ih h2 (e3.trans hf) (by rw [e4]; exact hne) hB hw key
      refine ⟨k + 1, s', by omega, ?_, k3, k4.trans e1, ?_⟩
      · rw [List.replicate_succ, run, h1]
        exact k2
      · rw [k5, hsel1]
        cases shift <;> rfl

/-- C149: at the start of a word, Ctrl+Right and then Ctrl+Left come back to it; so do Ctrl+Left and Ctrl+Right, unless the text starts there. -/
theorem C149_back {e : BoxEnv φ} (hg : e.Good) {s : TextBox φ} (h : Sound e s) (hf : s.focused = true) (hne : s.shown e ≠ []) {B : Nat → Prop}
    (hB : Breaks (e.breaks s.ctrl) B) {v : Nat} (hw : IsWord (e.breaks s.ctrl) B s.cursor.1 v) (right shift shift' : Bool)
    (h0 : right = false → 0 < s.cursor.1) :
    ∃ s1 s', handle e s (wordKey right shift) = some s1 ∧ (if right then s.cursor.1 < s1.cursor.1 else s1.cursor.1 < s.cursor.1) ∧
      handle e s1 (wordKey (!right) shift') = some s' ∧ s'.cursor = (s.cursor.1, .default) ∧ s'.text = s.text := by
  obtain ⟨s1, h1, h2, h3, h4⟩ := word_step hg h hf hne right shift
  obtain ⟨e1, e2, e3, e4⟩ := h3.same (e := e)
  obtain ⟨s', g1, g2, g3, g4⟩ := word_step hg h2 (e3.trans hf) (by rw [e4]; exact hne) (!right) shift'
  rw [e2] at g4
  refine ⟨s1, s', h1, ?_⟩
  cases right
  · simp only [Bool.false_eq_true, if_false, Bool.not_false, if_true] at h4 g1 g4 ⊢
    obtain ⟨a, a1, -, a2, a3⟩ := hw.before_start hB (hg.spaces _) (h0 rfl) s.cursor.2
    rw [h4] at a1
    cases a1
    rw [g4] at a3
    exact ⟨a2, g1, Option.some.inj a3, (g3.same (e := e)).1.trans e1⟩
  · simp only [Bool.false_eq_true, if_false, Bool.not_true, if_true] at h4 g1 g4 ⊢
    obtain ⟨a, a1, a2, a3⟩ := hw.next_prev hB (hg.spaces _) s.cursor.2
    rw [h4] at a1
    cases a1
    rw [g4] at a3
    exact ⟨a2, g1, Option.some.inj a3, (g3.same (e := e)).1.trans e1⟩

/-! The hypotheses are met: "ab cd e" (`typeWords_word`), from the start and from the end to `cd`, and from `cd` both ways and back. -/

example : (run marksBox {} (typeWords ++ [.home false true, .right true true])).map (fun s => (s.sel.map (·.1), s.cursor.1)) = some (some 0, 3) ∧
    (run marksBox {} (typeWords ++ [.left true true, .left true true])).map (fun s => (s.sel.map (·.1), s.cursor.1)) = some (some 7, 3) ∧
    (run marksBox {} (typeWords ++ [.left true true, .left true true, .left false true])).map (fun s => (s.sel.map (·.1), s.cursor.1)) = some (none, 0) ∧
    (run marksBox {} (typeWords ++ [.left true true, .left true true, .left false true, .right false true])).map (fun s => s.cursor.1) = some 3 ∧
    (run marksBox {} (typeWords ++ [.left true true, .left true true, .right false true])).map (fun s => s.cursor.1) = some 6 ∧
    (run marksBox {} (typeWords ++ [.left true true, .left true true, .right false true, .left false true])).map (fun s => s.cursor.1) = some 3 := by
  decide +kernel

end RichText
