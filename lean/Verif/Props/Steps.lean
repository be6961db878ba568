import Verif.Props.LineKeys
import Verif.Props.Words
import Mathlib.Data.Nat.Count
/-!
C162: Left and Right reach every place between two characters.
-/
namespace RichText
variable {φ : Type}
open TextBox
namespace TextBox

theorem count_none {B : Nat → Prop} [DecidablePred B] {a : Nat} : ∀ (d : Nat), (∀ m, a ≤ m → m < a + d → ¬ B m) → Nat.count B (a + d) = Nat.count B a
  | 0, _ => rfl
  | d + 1, h => by
    rw [← Nat.add_assoc, Nat.count_succ, if_neg (h (a + d) (by omega) (by omega)), count_none d (fun m h1 h2 => h m h1 (by omega)), Nat.add_zero]

/-- The boundary before a place, and the one behind. -/
theorem count_before {B : Nat → Prop} [DecidablePred B] {q c : Nat} (hq : B q) (hlt : q < c) (hmax : ∀ m, B m → m < c → m ≤ q) :
    Nat.count B c = Nat.count B q + 1 := by
  have := count_none (B := B) (a := q + 1) (c - (q + 1)) (fun m h1 h2 hm => by have := hmax m hm (by omega); omega)
  rw [show q + 1 + (c - (q + 1)) = c by omega] at this
  rw [this, Nat.count_succ, if_pos hq]

/-- Left and Right. -/
def charKey (right shift : Bool) : Input := if right then .right shift false else .left shift false

/-- What Left and Right leave alone. -/
def OnlyCaret (s s' : TextBox φ) : Prop := s' = { s with cursor := s'.cursor, sel := s'.sel, info := s'.info, timer := s'.timer, flash := s'.flash }

theorem char_step {e : BoxEnv φ} (hg : e.Good) {s : TextBox φ} (h : Sound e s) (hf : s.focused = true) (hne : s.shown e ≠ []) (right shift : Bool) :
    ∃ s', handle e s (charKey right shift) = some s' ∧ Sound e s' ∧ Went s s' shift := by
  obtain ⟨s', h1, h2⟩ := handle_sound hg h (i := charKey right shift)
    ⟨.inl hne, by cases right <;> exact nofun, by cases right <;> exact nofun, by cases right <;> exact h.small⟩
  have hw : Went s s' shift := by
    cases right
    · simp only [charKey, Bool.false_eq_true, if_false, handle, hf, if_true, key, TextBox.prevCharacter] at h1
      exact (setCursor_went h1).1
    · simp only [charKey, Bool.false_eq_true, if_false, handle, hf, if_true, key, TextBox.nextCharacter] at h1
      exact (setCursor_went h1).1
  have := hw.1
  exact ⟨s', h1, h2.sound (by rw [this]; exact hf), hw⟩

end TextBox

section
variable {e : BoxEnv φ}

/-- C162: from any place of the caret and to any boundary before it, Left has to be pressed as often as there are boundaries from there up to the
caret, no more and no less. -/
theorem C162_left (hg : e.Good) (shift : Bool) {B : Nat → Prop} [DecidablePred B] {b : Nat} (hb : B b) : ∀ (n : Nat) {s : TextBox φ}, Sound e s →
    s.focused = true → s.shown e ≠ [] → Breaks (e.breaks s.ctrl) B → b ≤ s.cursor.1 → Nat.count B s.cursor.1 = Nat.count B b + n →
    ∃ s', run e s (List.replicate n (.left shift false)) = some s' ∧ s'.cursor.1 = b ∧ Sound e s' ∧ OnlyCaret s s' ∧
      (shift = false → s.sel = none → s'.sel = none)
  | 0, s, h, _, _, _, hle, hn => by
    refine ⟨s, rfl, ?_, h, rfl, fun _ h0 => h0⟩
    refine Nat.le_antisymm ?_ hle
    refine (Nat.lt_or_ge b s.cursor.1).elim (fun hlt => ?_) id
    have h1 := Nat.count_monotone B (show b + 1 ≤ s.cursor.1 from hlt)
    rw [Nat.count_succ, if_pos hb] at h1
    omega
  | n + 1, s, h, hf, hne, hB, hle, hn => by
    have hlt : b < s.cursor.1 := (Nat.lt_or_ge b s.cursor.1).elim id (fun hge => by
      rw [Nat.le_antisymm hge hle] at hn; omega)
    obtain ⟨s1, h1, h2, h3⟩ := char_step hg h hf hne false shift
    change handle e s (.left shift false) = some s1 at h1
    rcases (C64_left hf hB h1).2 with ⟨q, q1, q2, q3, q4⟩ | ⟨q1, -⟩
    · have hc := count_before q1 q2 q3
      have e1 := h3.1
      obtain ⟨-, k2, k3, k4⟩ := h3.same (e := e)
      obtain ⟨s2, g1, g2, g3, g4, g5⟩ := C162_left hg shift hb n h2 (k3.trans hf) (by rw [k4]; exact hne) (by rw [k2]; exact hB)
        (by rw [q4]; exact q3 b hb hlt) (by rw [q4]; show Nat.count B q = _; omega)
      refine ⟨s2, by rw [List.replicate_succ, run, h1]; exact g1, g2, g3, ?_, fun hs _ => g5 hs (h3.2.1 hs)⟩
      unfold OnlyCaret at g4 ⊢
      rw [g4, e1]
    · omega

/-- C162: the same for Right, from a boundary to any boundary behind it. -/
theorem C162_right (hg : e.Good) (shift : Bool) {B : Nat → Prop} [DecidablePred B] {b : Nat} (hb : B b) : ∀ (n : Nat) {s : TextBox φ}, Sound e s →
    s.focused = true → s.shown e ≠ [] → Breaks (e.breaks s.ctrl) B → B s.cursor.1 → s.cursor.1 ≤ b → Nat.count B b = Nat.count B s.cursor.1 + n →
    ∃ s', run e s (List.replicate n (.right shift false)) = some s' ∧ s'.cursor.1 = b ∧ Sound e s' ∧ OnlyCaret s s' ∧
      (shift = false → s.sel = none → s'.sel = none)
  | 0, s, h, _, _, _, hcur, hle, hn => by
    refine ⟨s, rfl, ?_, h, rfl, fun _ h0 => h0⟩
    refine Nat.le_antisymm hle ?_
    refine (Nat.lt_or_ge s.cursor.1 b).elim (fun hlt => ?_) id
    have h1 := Nat.count_monotone B (show s.cursor.1 + 1 ≤ b from hlt)
    rw [Nat.count_succ, if_pos hcur] at h1
    omega
  | n + 1, s, h, hf, hne, hB, hcur, hle, hn => by
    have hlt : s.cursor.1 < b := (Nat.lt_or_ge s.cursor.1 b).elim id (fun hge => by
      rw [Nat.le_antisymm hle hge] at hn; omega)
    obtain ⟨s1, h1, h2, h3⟩ := char_step hg h hf hne true shift
    change handle e s (.right shift false) = some s1 at h1
    rcases (C64_right hf hB h1).2 with ⟨q, ⟨q1, q2, q3⟩, q4⟩ | ⟨q1, -⟩
    · have hc : Nat.count B q = Nat.count B s.cursor.1 + 1 :=
        count_before hcur q2 (fun m hm hmq => (Nat.lt_or_ge s.cursor.1 m).elim (fun hlt' => by have := q3 m hm hlt'; omega) id)
      have e1 := h3.1
      obtain ⟨-, k2, k3, k4⟩ := h3.same (e := e)
      obtain ⟨s2, g1, g2, g3, g4, g5⟩ := C162_right hg shift hb n h2 (k3.trans hf) (by rw [k4]; exact hne) (by rw [k2]; exact hB)
        (by rw [q4]; exact q1) (by rw [q4]; exact q3 b hb hlt) (by rw [q4]; show _ = Nat.count B q + n; omega)
      refine ⟨s2, by rw [List.replicate_succ, run, h1]; exact g1, g2, g3, ?_, fun hs _ => g5 hs (h3.2.1 hs)⟩
      unfold OnlyCaret at g4 ⊢
      rw [g4, e1]
    · have := hB.inside b hb
      omega

/-- C162: something can be typed at every boundary of the text: Left or Right, pressed the right number of times, leads there. -/
theorem C162_types (hg : e.Good) {s : TextBox φ} (h : Editing e s) (hne : s.text ≠ []) {B : Nat → Prop} [DecidablePred B]
    (hB : Breaks (e.breaks s.ctrl) B) (hcur : B s.cursor.1) {b : Nat} (hb : B b) (cs : List Nat) (hl : s.text.length + 4 * cs.length < e.limit) :
    ∃ n right s', run e s (List.replicate n (charKey right false) ++ cs.map .char) = some s' ∧ Editing e s' ∧
      s'.text = s.text.take b ++ cs.flatMap utf8Encode ++ s.text.drop b ∧
      n = (if right then Nat.count B b - Nat.count B s.cursor.1 else Nat.count B s.cursor.1 - Nat.count B b) := by
  have hgo : ∃ n right s', run e s (List.replicate n (charKey right false)) = some s' ∧ s'.cursor.1 = b ∧ Sound e s' ∧ OnlyCaret s s' ∧ s'.sel = none ∧
      n = (if right then Nat.count B b - Nat.count B s.cursor.1 else Nat.count B s.cursor.1 - Nat.count B b) := by
    rcases Nat.le_total b s.cursor.1 with hle | hle
    · have := Nat.count_monotone B hle
      obtain ⟨s', a1, a2, a3, a4, a5⟩ := C162_left hg false hb (Nat.count B s.cursor.1 - Nat.count B b) h.sound h.focused (by rw [h.shown]; exact hne) hB hle (by omega)
      exact ⟨_, false, s', a1, a2, a3, a4, a5 rfl h.sel, rfl⟩
    · have := Nat.count_monotone B hle
      obtain ⟨s', a1, a2, a3, a4, a5⟩ := C162_right hg false hb (Nat.count B b - Nat.count B s.cursor.1) h.sound h.focused (by rw [h.shown]; exact hne) hB hcur hle (by omega)
      exact ⟨_, true, s', a1, a2, a3, a4, a5 rfl h.sel, rfl⟩
  obtain ⟨n, right, s1, a1, a2, a3, a4, a5, a6⟩ := hgo
  have a4' : s1 = _ := a4
  have ht : s1.text = s.text := by rw [a4']
  obtain ⟨s2, b1, b2, -, b3⟩ := Editing.types hg cs (s := s1) ⟨a3, by rw [a4']; exact h.focused, by rw [a4']; exact h.editable, a5⟩ (by rw [ht]; exact hl)
  exact ⟨n, right, s2, by rw [run_append, a1]; exact b1, b2, by rw [b3, ht, a2], a6⟩

/-! The hypotheses are met: `a`, é (two bytes) and `b`; the places between are 0, 1, 3 and 4, so that two times Left leads from 4 to 1; Left and Right
lead back. -/

example : Breaks (marksBox.breaks [97, 195, 169, 98]) (fun k => k ≤ 4 ∧ marksBoundary [97, 195, 169, 98] k = true) := marksEnv_breaks _

example : (run marksBox {} ([.focus, .char 97, .char 233, .char 98] ++ List.replicate 2 (charKey false false) ++ [.char 120])).map (·.text) =
    some [97, 120, 195, 169, 98] := by decide +kernel

example : (run marksBox {} ([.focus, .char 97, .char 233, .char 98] ++ List.replicate 3 (charKey false false) ++ List.replicate 2 (charKey true false))).map
    (·.cursor.1) = some 3 := by decide +kernel

end
end RichText
