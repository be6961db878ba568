import Verif.Props.RichTyping
import Verif.Props.DragType
/-!
C140 for selections: what is removed from the source of a rich text is removed from what is shown.
-/
namespace RichText
open Spec
variable {F β φ : Type}

namespace TextBox

theorem removeHighlighted_rich {e : BoxEnv φ} {s s' : TextBox φ} (h : removeHighlighted e s = some s') : s'.rich = s.rich := by
  unfold removeHighlighted at h
  split at h
  · cases h; rfl
  · split at h
    · cases h; rfl
    · split at h
      · rw [(removeText_fields h).2]
      · rw [(removeText_fields h).2]

/-- The ways to remove what is selected. -/
def Input.removes : Input → Bool
  | .backspace _ | .delete _ | .cut => true
  | _ => false

/-- Removing what is selected. -/
theorem removes {e : BoxEnv φ} (hg : e.Good) {s : TextBox φ} (h : Sound e s) (hf : s.focused = true) (he : s.editable = true) {c : Cursor}
    (hsel : s.sel = some c) (hne : c ≠ s.cursor) {i : Input} (hi : i.removes = true) :
    ∃ s', handle e s i = some s' ∧ Editing e s' ∧ s'.rich = s.rich ∧
      s'.text = s.text.take (min c.1 s.cursor.1) ++ s.text.drop (max c.1 s.cursor.1) := by
  have hk : (i = .cut → s.editable = true) ∧ ((∃ b, i = .backspace b) ∨ (∃ b, i = .delete b) ∨ (i = .cut ∧ s.editable = true)) := by
    cases i <;> simp_all [Input.removes]
  obtain ⟨s', h1, h2⟩ := handle_valid hg (Or.inl h) (i := i) ⟨Or.inr (by cases i <;> simp_all [Input.removes, Input.moves]), fun _ => Or.inl he,
    (fun hh => by rw [hh] at hi; cases hi), by cases i <;> simp_all [Input.removes, growth] <;> exact h.small⟩
  obtain ⟨x, y, -, r2, r3, -, r5⟩ := C53_remove_selection_partial hf hsel hne hk.2 h1
  obtain ⟨rfl, rfl⟩ := r2 _ hsel
  have hcol : s.sel ≠ some s.cursor := by rw [hsel]; exact fun h0 => hne (Option.some.inj h0)
  have hcl : ∃ s1 : TextBox φ, s1.rich = s.rich ∧ s1.sel = s.sel ∧ s1.cursor = s.cursor ∧ s1.editable = s.editable ∧ s1.focused = s.focused ∧
      removeHighlighted e s1 = some s' := by
    rcases hk.2 with ⟨b, rfl⟩ | ⟨b, rfl⟩ | ⟨rfl, -⟩
    · refine ⟨s, rfl, rfl, rfl, rfl, rfl, ?_⟩
      simpa only [handle, hf, if_true, key, TextBox.backspace, hsel, Option.isSome_some] using h1
    · refine ⟨s, rfl, rfl, rfl, rfl, rfl, ?_⟩
      simpa only [handle, hf, if_true, key, TextBox.delete, hsel, Option.isSome_some] using h1
    · have h3 := h1
      simp only [handle, hf, if_true, key, TextBox.cut, he, Bool.not_true, Bool.false_eq_true, if_false] at h3
      split at h3
      · cases h3
      · rename_i s1 hc1
        have := copy_fields hc1
        exact ⟨s1, by rw [this], by rw [this], by rw [this], by rw [this], by rw [this], h3⟩
  obtain ⟨s1, k1, k2, k3, k4, k5, k6⟩ := hcl
  obtain ⟨-, -, m2, -, m4⟩ := removeHighlighted_fields (by rw [k2, k3]; exact hcol) k6
  have hf' : s'.focused = true := by rw [m4, k5]; exact hf
  exact ⟨s', h1, ⟨h2.sound hf', hf', by rw [m2, k4]; exact he, r5⟩, by rw [removeHighlighted_rich k6, k1], by rw [r3]; simp⟩

end TextBox

open TextBox

/-- C140 (partial: all that is selected is shown).  In a box of rich text whose source is a document, a stretch of the source that has no tags is
selected.  It is removed, with Backspace, Delete or Cut, and the box is left: it shows what it showed before without the stretch. -/
theorem C140_remove_partial (a : App F β φ) (n : Nat) (ha : a.Contract n) (s : TextBox φ) (hs : Sound a.box s) (hf : s.focused = true)
    (he : s.editable = true) (hr : s.rich = true) (c : Cursor) (hsel : s.sel = some c) (hne : c ≠ s.cursor) (i : Input) (hi : i.removes = true)
    (o : List (UInt8 × Style F)) (hd : Document a.parser (baseStyle a.font a.color a.stroke) s.text o) :
    ∃ ps : List Nat, ps.length = o.length ∧ ps.Pairwise (· < ·) ∧ ps.map (s.text[·]?) = o.map (some ·.1) ∧
      ((∀ m, min c.1 s.cursor.1 ≤ m → m < max c.1 s.cursor.1 → m ∈ ps) →
        ∃ s' runs, run a.box s [i, .blur] = some s' ∧
          s'.ctrl = (stays (fun n => decide (min c.1 s.cursor.1 ≤ n) && decide (n < max c.1 s.cursor.1)) ps o).map (·.1) ∧
          a.formatted true s'.text = .ok (s'.ctrl, runs) ∧
          ShowsStyles runs (stays (fun n => decide (min c.1 s.cursor.1 ≤ n) && decide (n < max c.1 s.cursor.1)) ps o) ∧
          (s'.ctrl ≠ [] → buildLayout {} (a.paragraphs s'.ctrl runs) s'.ctrl.length a.yAlign a.height = some s'.layout)) := by
  obtain ⟨ps, h1, h2, h3, h4⟩ := C139_delete a.parser s.text a.font a.color a.stroke ha.font o hd
  refine ⟨ps, h1, h2, h3, fun hshown => ?_⟩
  obtain ⟨s1, r1, r2, r3, r4⟩ := removes (C89_good a n ha) hs hf he hsel hne hi
  have hsh := shown_plain (e := a.box) (s := s) (by simp [showsRich, hf, he])
  have hcur := hs.cursor
  have hse := hs.sel _ hsel
  rw [hsh] at hcur hse
  obtain ⟨runs, e1, e2⟩ := h4 (fun n => decide (min c.1 s.cursor.1 ≤ n) && decide (n < max c.1 s.cursor.1)) fun p hp => by
    simp only [Bool.and_eq_true, decide_eq_true_eq] at hp
    exact hshown p hp.1 hp.2
  rw [without_stretch _ (by omega) (by omega), ← r4] at e1
  obtain ⟨s2, b1, b2, b3, b4⟩ := r2.leave ha (r3.trans hr) e1
  refine ⟨s2, runs, ?_, b2, ?_, e2, fun hne => ?_⟩
  · rw [show [i, Input.blur] = [i] ++ [.blur] from rfl, TextBox.run_append]
    simp only [run, r1, Option.bind_some]
    exact b1
  · rw [b2, b3]; exact e1
  · rw [b2] at hne ⊢
    exact b4 hne

/-! The hypotheses are met: `<u>abc</u>z` is being edited with the `b` selected backwards. -/

def cutMarkup : Bytes := b!"<u>abc</u>z"

def cutBox : TextBox Nat where
  rich := true
  focused := true
  text := cutMarkup
  cursor := (4, .default)
  sel := some (5, .default)
  ctrl := cutMarkup
  layout := demoApp.box.layout false cutMarkup

example : Sound demoApp.box cutBox ∧ cutBox.focused = true ∧ cutBox.editable = true ∧ cutBox.rich = true ∧ cutBox.sel = some (5, .default) ∧
    ((5, .default) : Cursor) ≠ cutBox.cursor ∧ Input.cut.removes = true :=
  ⟨⟨fun _ _ => rfl, by decide +kernel, by decide +kernel, by decide +kernel, (fun c h => by cases h; decide +kernel), fun _ => ⟨rfl, by decide +kernel⟩⟩,
    rfl, rfl, rfl, rfl, by decide, rfl⟩

example : Document demoApp.parser (baseStyle demoApp.font demoApp.color demoApp.stroke) cutBox.text
    [(c!"a", (baseStyle toyFont toyColor toyStroke).on .underline), (c!"b", (baseStyle toyFont toyColor toyStroke).on .underline),
     (c!"c", (baseStyle toyFont toyColor toyStroke).on .underline), (c!"z", baseStyle toyFont toyColor toyStroke)] :=
  ⟨_, Or.inl rfl, .tag .u (.char c!"a" (by decide) (by decide) (.char c!"b" (by decide) (by decide) (.char c!"c" (by decide) (by decide) (.nil _))))
    (.char c!"z" (by decide) (by decide) (.nil _))⟩

example : (run demoApp.box cutBox [.cut, .blur]).map (fun s => (s.text, s.ctrl, s.clip, s.layout.glyphs.length)) =
    some (b!"<u>ac</u>z", b!"acz", some b!"b", 3) := by decide +kernel

/-- The restriction is needed: with `bc</` selected and cut there is no document left and all of the source is shown. -/
example : (run demoApp.box { cutBox with sel := some (8, .default) } [.cut, .blur]).map (·.ctrl) = some b!"<u>au>z" := by decide +kernel

end RichText
