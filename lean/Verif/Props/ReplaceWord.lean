import Verif.Props.Words
/-!
C150: a word is selected with a double click and typed over.
-/
namespace RichText
variable {φ : Type}
open TextBox

/-- What is typed behind a double click on a word replaces the word and the white space behind it, up to the next word or the end of the line. -/
theorem TextBox.replaces_word {e : BoxEnv φ} (hg : e.Good) {s : TextBox φ} (h : Sound e s) (hf : s.focused = true) (he : s.editable = true)
    (hne : s.text ≠ []) (x y : Rat) (shift : Bool) {clicks : Nat} (hk : clicks % 4 = 1) {B : Nat → Prop} (hB : Breaks (e.breaks s.text) B) {p : Cursor}
    (hp : s.place e x y = some p) {w v : Nat} (hw : IsWord (e.breaks s.text) B w v) (h1 : w < p.1) (h2 : p.1 ≤ v) (c : Nat) (cs : List Nat)
    (hl : s.text.length + 4 * (cs.length + 1) < e.limit) :
    ∃ q s', B q ∧ v ≤ q ∧ q ≤ s.text.length ∧ (∀ k, B k → v ≤ k → k < q → SpaceAt (e.breaks s.text) k ∧ ¬ LineBreakAt (e.breaks s.text) k) ∧
      (q = s.text.length ∨ LineBreakAt (e.breaks s.text) q ∨ ¬ SpaceAt (e.breaks s.text) q) ∧
      run e s ([.press x y shift clicks, .release] ++ (c :: cs).map .char) = some s' ∧ Sound e s' ∧
      s'.text = s.text.take w ++ (c :: cs).flatMap utf8Encode ++ s.text.drop q := by
  have hsh := shown_plain (e := e) (s := s) (by simp [showsRich, hf, he])
  have hctrl : s.ctrl = s.text := h.ctrl.trans hsh
  obtain ⟨s1, a, d1, d2, d3, d4, d5, d6, d7, d8⟩ := double_click hg h hf (by rw [hsh]; exact hne) x y shift hk hp
  rw [hctrl] at d5 d6
  have hprev := hw.prev hB (hg.spaces _) h1 h2
  rw [d5] at hprev
  cases hprev
  obtain ⟨q, q1, q2, q3, q4, q5, q6⟩ := hw.next hB (hg.spaces _) .default
  rw [d6] at q1
  cases q1
  rw [hg.size] at q3 q5
  have hsome := hw.some
  have hp2 : run e s [.press x y shift clicks, .release] = some { s1 with drag := false } := by
    simp only [run, d1]
    simp [handle, d7]
  obtain ⟨s2, b1, b2, b3, -⟩ := types_over hg (s := { s1 with drag := false }) (p := (w, .default))
    ⟨d2.mode, d2.ctrl, d2.small, d2.cursor, d2.sel, d2.laid⟩ d7 (d8.trans he) d4
    (fun h0 => by have := congrArg Prod.fst h0; simp only at this; omega) c cs (by simp only [d3]; exact hl)
  refine ⟨s1.cursor.1, s2, q6, q2, q3, q4, q5, by rw [run_append, hp2]; exact b1, b2.sound, ?_⟩
  rw [b3]
  simp only [d3]
  rw [Nat.min_eq_left (by omega), Nat.max_eq_right (by omega)]

/-- C150: a second click on a word, but not at its start, and characters typed: they replace the word, if it is the last one of its line.  Missing from
the full statement: words that are followed by white space, for which it is false (`C150_joined_violated`), and clicks at the start of the word
(`C147_start_violated`). -/
theorem C150_replaced_partial {e : BoxEnv φ} (hg : e.Good) {s : TextBox φ} (h : Sound e s) (hf : s.focused = true) (he : s.editable = true)
    (hne : s.text ≠ []) (x y : Rat) (shift : Bool) {clicks : Nat} (hk : clicks % 4 = 1) {B : Nat → Prop} (hB : Breaks (e.breaks s.text) B) {p : Cursor}
    (hp : s.place e x y = some p) {w v : Nat} (hw : IsWord (e.breaks s.text) B w v) (h1 : w < p.1) (h2 : p.1 ≤ v)
    (hend : v = s.text.length ∨ LineBreakAt (e.breaks s.text) v) (c : Nat) (cs : List Nat) (hl : s.text.length + 4 * (cs.length + 1) < e.limit) :
    ∃ s', run e s ([.press x y shift clicks, .release] ++ (c :: cs).map .char) = some s' ∧ Sound e s' ∧
      s'.text = s.text.take w ++ (c :: cs).flatMap utf8Encode ++ s.text.drop v := by
  obtain ⟨q, s', -, q1, q2, q3, -, q5, q6, q7⟩ := replaces_word hg h hf he hne x y shift hk hB hp hw h1 h2 c cs hl
  have hq : q = v := by
    refine (Nat.eq_or_lt_of_le q1).elim (fun h => h.symm) (fun hlt => ?_)
    rcases hend with hend | hend
    · omega
    · exact absurd hend (q3 v hw.finish (Nat.le_refl _) hlt).2
  exact ⟨s', q5, q6, by rw [q7, hq]⟩

/-- C150 is false for every word that is followed by a word on the same line: the white space between the two is lost, what is typed and the next word
are joined. -/
theorem C150_joined_violated {e : BoxEnv φ} (hg : e.Good) {s : TextBox φ} (h : Sound e s) (hf : s.focused = true) (he : s.editable = true)
    (hne : s.text ≠ []) (x y : Rat) (shift : Bool) {clicks : Nat} (hk : clicks % 4 = 1) {B : Nat → Prop} (hB : Breaks (e.breaks s.text) B) {p : Cursor}
    (hp : s.place e x y = some p) {w v w' v' : Nat} (hw : IsWord (e.breaks s.text) B w v) (h1 : w < p.1) (h2 : p.1 ≤ v)
    (hw' : IsWord (e.breaks s.text) B w' v') (hlt : v < w')
    (hbetween : ∀ k, B k → v ≤ k → k < w' → SpaceAt (e.breaks s.text) k ∧ ¬ LineBreakAt (e.breaks s.text) k) (c : Nat) (cs : List Nat)
    (hl : s.text.length + 4 * (cs.length + 1) < e.limit) :
    ∃ s', run e s ([.press x y shift clicks, .release] ++ (c :: cs).map .char) = some s' ∧
      s'.text = s.text.take w ++ (c :: cs).flatMap utf8Encode ++ s.text.drop w' := by
  obtain ⟨q, s', q0, q1, q2, q3, q4, q5, -, q7⟩ := replaces_word hg h hf he hne x y shift hk hB hp hw h1 h2 c cs hl
  have hq : q = w' := by
    rcases Nat.lt_trichotomy q w' with hqw | hqw | hqw
    · obtain ⟨b1, b2⟩ := hbetween q q0 q1 hqw
      rcases q4 with q4 | q4 | q4
      · have hin := hB.inside _ hw'.start
        rw [hg.size] at hin
        omega
      · exact absurd q4 b2
      · exact absurd b1 q4
    · exact hqw
    · exact absurd (q3 w' hw'.start (by omega) hqw).1 (hw'.inner w' hw'.start (Nat.le_refl _) hw'.some)
  exact ⟨s', q5, by rw [q7, hq]⟩

/-! The hypotheses are met: "ab cd e" with `e`, the last word, or `cd` typed over. -/

example : (run marksBox {} (typeWords ++ [.press 35 2 false 1, .release, .char 120, .char 121])).map (fun s => (s.text, s.cursor.1)) = some (b!"ab cd xy", 8) ∧
    (run marksBox {} (typeWords ++ [.press 20 2 false 1, .release, .char 120, .char 121])).map (fun s => (s.text, s.cursor.1)) = some (b!"ab xye", 5) := by
  decide +kernel

end RichText
