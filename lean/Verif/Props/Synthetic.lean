import Verif.Model.Synthetic
import Mathlib.Tactic.Linarith
/-!
Made-up weights and styles (`src/font_data.cpp`): C81 (strokes get the style of
the glyph they surround), C82 (a made-up weight is heavier or lighter as it should
be), C83 (outlines in font units do not depend on a size).

FreeType is arbitrary.
-/
namespace RichText

variable {α : Type}

/-! ### A concrete case -/

/-- An upright stem: thickness and left edge, in 64ths; one em is as many pixels
as the size. -/
def stemLib : OutlineLib (Int × Int) where
  load size g := (size * 8 + g, 64)
  loadUnscaled g := (125 + g, 50)
  stroke t _ o := (o.1 + 2 * t, o.2 - t)
  embolden x _ o := (o.1 + x, o.2)
  translate x o := (o.1, o.2 + x)
  shear _ o := o
  emX size := size * 64
  emY size := size * 64
  fixedWidth := true

/-- Bold out of Regular. -/
def fakeBold : SynthInfo := ⟨3, 6, .normal, .normal⟩

/-- Bold italic out of Regular. -/
def fakeBoldItalic : SynthInfo := ⟨3, 6, .normal, .italic⟩

/-- Nothing yet. -/
def noOutlines : Outlines (Int × Int) := ⟨(0, 0), (0, 0)⟩

/-! ### C81 -/

/-- What is done to an outline: sheared if the style is another one, then
emboldened (and for fixed width moved left by half of that) if the weight is
another one.  `x` and `y` are what is added. -/
inductive Styled (L : OutlineLib α) (x y dx : Int) (info : SynthInfo) : α → α → Prop
  | same {o : α} : info.srcWeight = info.dstWeight → info.srcStyle = info.dstStyle → Styled L x y dx info o o
  | slanted {o : α} : info.srcWeight = info.dstWeight → info.srcStyle ≠ info.dstStyle →
      Styled L x y dx info o (L.shear (info.dstStyle == .italic) o)
  | bold {o : α} : info.srcWeight ≠ info.dstWeight → info.srcStyle = info.dstStyle → L.fixedWidth = false →
      Styled L x y dx info o (L.embolden x y o)
  | boldFixed {o : α} : info.srcWeight ≠ info.dstWeight → info.srcStyle = info.dstStyle → L.fixedWidth = true →
      Styled L x y dx info o (L.translate dx (L.embolden x y o))
  | both {o : α} : info.srcWeight ≠ info.dstWeight → info.srcStyle ≠ info.dstStyle → L.fixedWidth = false →
      Styled L x y dx info o (L.embolden x y (L.shear (info.dstStyle == .italic) o))
  | bothFixed {o : α} : info.srcWeight ≠ info.dstWeight → info.srcStyle ≠ info.dstStyle → L.fixedWidth = true →
      Styled L x y dx info o (L.translate dx (L.embolden x y (L.shear (info.dstStyle == .italic) o)))

/-- The amounts for a weight at a size. -/
structure BoldAmounts (L : OutlineLib α) (size : Nat) (info : SynthInfo) (x y dx : Int) : Prop where
  scale : ∃ s : Rat, boldScale info.dstWeight = some s ∧ x = truncRat (L.emX size * s) ∧
    y = truncRat (L.emY size * s * (2 / 5)) ∧ dx = truncRat (L.emX size * s / -2)

theorem boldScale_some {w : Nat} (h : w < 9) : ∃ s, boldScale w = some s := by
  unfold boldScale
  rw [List.getElem?_eq_getElem (by simpa using h)]
  exact ⟨_, rfl⟩

theorem trySynthetics_slot (L : OutlineLib α) (size : Nat) (info : SynthInfo) (hw : info.dstWeight < 9) (m : Outlines α) :
    ∃ m' x y dx, trySynthetics L size info .slot m = some m' ∧ BoldAmounts L size info x y dx ∧
      Styled L x y dx info m.slot m'.slot := by
  obtain ⟨s, hs⟩ := boldScale_some hw
  unfold trySynthetics applyBold applyItalic
  by_cases h1 : info.srcWeight = info.dstWeight <;> by_cases h2 : info.srcStyle = info.dstStyle <;>
    cases h3 : L.fixedWidth <;> simp only [h1, h2, ne_eq, not_true_eq_false, not_false_eq_true, if_true, if_false, hs, h3]
  all_goals refine ⟨_, truncRat (L.emX size * s), truncRat (L.emY size * s * (2 / 5)), truncRat (L.emX size * s / -2), rfl,
    ⟨s, hs, rfl, rfl, rfl⟩, ?_⟩
  · exact .same h1 h2
  · exact .same h1 h2
  · exact .slanted h1 h2
  · exact .slanted h1 h2
  · exact .bold h1 h2 h3
  · exact .boldFixed h1 h2 h3
  · exact .both h1 h2 h3
  · exact .bothFixed h1 h2 h3

/-- C81 for glyphs.  What is drawn for a glyph is its outline at the current size
with weight and style applied, whatever was drawn before. -/
theorem C81_glyph (L : OutlineLib α) (size : Nat) (info : SynthInfo) (hw : info.dstWeight < 9) (glyph : Nat) (m : Outlines α) :
    ∃ o m' x y dx, renderGlyph L size info glyph m = some (o, m') ∧ BoldAmounts L size info x y dx ∧
      Styled L x y dx info (L.load size glyph) o := by
  obtain ⟨m', x, y, dx, h1, h2, h3⟩ := trySynthetics_slot L size info hw { m with slot := L.load size glyph }
  unfold renderGlyph
  rw [h1]
  exact ⟨_, _, x, y, dx, rfl, h2, h3⟩

/-- C81 for strokes, full claim: what is drawn for a stroke is the stroke of the
glyph with the same weight and style applied.  Violated: the emboldening goes to
the outline in the glyph slot, which is not drawn, so the stroke stays as thin as
that of the regular glyph. -/
theorem C81_stroke_violated : ¬ ∀ (L : OutlineLib (Int × Int)) (size : Nat) (info : SynthInfo), info.dstWeight < 9 →
    ∀ (glyph thickness joins : Nat) (m : Outlines (Int × Int)),
    ∃ o m' x y dx, renderStroke L size info glyph thickness joins m = some (o, m') ∧ BoldAmounts L size info x y dx ∧
      Styled L x y dx info (L.stroke (thickness * 64 : Nat) joins (L.load size glyph)) o := by
  intro h
  obtain ⟨o, m', x, y, dx, h1, ⟨s, hs, rfl, rfl, rfl⟩, h2⟩ := h stemLib 56 fakeBold (by decide) 0 1 0 noOutlines
  have hs' : boldScale fakeBold.dstWeight = some (1 / 14) := by decide +kernel
  rw [hs'] at hs
  cases hs
  have e : renderStroke stemLib 56 fakeBold 0 1 0 noOutlines = some ((576, -128), ⟨(704, 64), (576, -128)⟩) := by decide +kernel
  rw [e] at h1
  cases h1
  generalize ho : ((576, -128) : Int × Int) = o at h2
  cases h2 with
  | same h _ => exact absurd h (by decide)
  | slanted h _ => exact absurd h (by decide)
  | bold _ _ h => exact absurd h (by decide)
  | boldFixed => exact absurd ho (by decide +kernel)
  | both _ h _ => exact absurd rfl h
  | bothFixed _ h _ => exact absurd rfl h

/-- C81 for strokes, the part that holds: as long as the weight is not made
up. -/
theorem C81_stroke_partial (L : OutlineLib α) (size : Nat) (info : SynthInfo) (hw : info.dstWeight < 9)
    (heq : info.srcWeight = info.dstWeight) (glyph thickness joins : Nat) (m : Outlines α) :
    ∃ o m' x y dx, renderStroke L size info glyph thickness joins m = some (o, m') ∧ BoldAmounts L size info x y dx ∧
      Styled L x y dx info (L.stroke (thickness * 64 : Nat) joins (L.load size glyph)) o := by
  obtain ⟨s, hs⟩ := boldScale_some hw
  have hb : BoldAmounts L size info _ _ _ := ⟨s, hs, rfl, rfl, rfl⟩
  unfold renderStroke trySynthetics applyItalic
  by_cases h2 : info.srcStyle = info.dstStyle <;>
    simp only [heq, h2, ne_eq, not_true_eq_false, not_false_eq_true, if_true, if_false]
  · exact ⟨_, _, _, _, _, rfl, hb, .same heq h2⟩
  · exact ⟨_, _, _, _, _, rfl, hb, .slanted heq h2⟩

/-- Bold out of Regular at 56 pixels: the stem grows by 4 pixels, its stroke does
not. -/
example : (renderGlyph stemLib 56 fakeBold 0 noOutlines).map (·.1) = some (704, -64) ∧
    (renderStroke stemLib 56 fakeBold 0 1 0 noOutlines).map (·.1) = some (576, -128) ∧
    (renderGlyph stemLib 56 fakeBoldItalic 0 noOutlines).map (·.1) = some (704, -64) := by decide +kernel

/-! ### C82 -/

/-- C82, full claim: a weight heavier than that of the face thickens, a lighter
one thins.  Violated: the amount only depends on the weight asked for, so Medium
made out of Black is thicker than Black. -/
theorem C82_direction_violated : ¬ ∀ (info : SynthInfo) (s : Rat), info.srcWeight < 9 → boldScale info.dstWeight = some s →
    (info.srcWeight < info.dstWeight → 0 < s) ∧ (info.dstWeight < info.srcWeight → s < 0) := by
  intro h
  have h2 := (h ⟨8, 4, .normal, .normal⟩ (1 / 32) (by decide) (by decide +kernel)).2 (by decide)
  exact absurd h2 (by decide +kernel)

/-- C82, the part that holds: made out of Regular; and among weights made out of
one face the heavier ones are thicker. -/
theorem C82_direction_partial (w : Nat) (s : Rat) (h : boldScale w = some s) :
    (3 < w ↔ 0 < s) ∧ (w < 3 ↔ s < 0) ∧ ∀ w' s', boldScale w' = some s' → (w < w' ↔ s < s') := by
  have key : ∀ w, w < 9 → ∀ w', w' < 9 → ∃ s s', boldScale w = some s ∧ boldScale w' = some s' ∧
      (3 < w ↔ 0 < s) ∧ (w < 3 ↔ s < 0) ∧ (w < w' ↔ s < s') := by
    have : ∀ w, w < 9 → ∀ w', w' < 9 → ((boldScale w).any fun s => (boldScale w').any fun s' =>
        decide ((3 < w ↔ 0 < s) ∧ (w < 3 ↔ s < 0) ∧ (w < w' ↔ s < s'))) = true := by decide +kernel
    intro w hw w' hw'
    have h := this w hw w' hw'
    rw [Option.any_eq_true] at h
    obtain ⟨s, h1, h⟩ := h
    rw [Option.any_eq_true] at h
    obtain ⟨s', h2, h⟩ := h
    exact ⟨s, s', h1, h2, of_decide_eq_true h⟩
  have lt : ∀ w s, boldScale w = some s → w < 9 := by
    intro w s h
    unfold boldScale at h
    simpa using (List.getElem?_eq_some_iff.1 h).1
  have hw := lt w s h
  obtain ⟨a, b, h1, _, h3, h4, _⟩ := key w hw w hw
  rw [h] at h1
  cases h1
  refine ⟨h3, h4, fun w' s' h' => ?_⟩
  obtain ⟨a, b, h1, h2, _, _, h5⟩ := key w hw w' (lt w' s' h')
  rw [h] at h1
  rw [h'] at h2
  cases h1
  cases h2
  exact h5

/-- `BOLD_SCALE` has an entry for exactly the nine weights; for any other weight
the access is out of range. -/
theorem C82_weights (w : Nat) : (∃ s, boldScale w = some s) ↔ w < 9 := by
  constructor
  · rintro ⟨s, h⟩
    unfold boldScale at h
    simpa using (List.getElem?_eq_some_iff.1 h).1
  · exact boldScale_some

/-! ### C83 -/

/-- C83, full claim: the outline of a glyph in font units is the same at every
size.  Violated: the emboldening is in pixels of the size that happens to be
set. -/
theorem C83_unscaled_violated : ¬ ∀ (L : OutlineLib (Int × Int)) (info : SynthInfo), info.dstWeight < 9 →
    ∀ (glyph size size' : Nat) (m m' : Outlines (Int × Int)),
      (curve L size info glyph m).map (·.1) = (curve L size' info glyph m').map (·.1) := by
  intro h
  exact absurd (h stemLib fakeBold (by decide) 0 14 28 noOutlines noOutlines) (by decide +kernel)

/-- C83, the part that holds: as long as the weight is not made up; strokes keep
it always if the font is not of fixed width (since they are not emboldened). -/
theorem C83_unscaled_partial (L : OutlineLib α) (info : SynthInfo) (glyph size size' : Nat) (m m' : Outlines α) :
    (info.srcWeight = info.dstWeight → (curve L size info glyph m).map (·.1) = (curve L size' info glyph m').map (·.1)) ∧
    (info.srcWeight = info.dstWeight ∨ L.fixedWidth = false → ∀ thickness joins : Nat,
      (strokeCurve L size info glyph thickness joins m).map (·.1) = (strokeCurve L size' info glyph thickness joins m').map (·.1)) := by
  constructor
  · intro heq
    unfold curve trySynthetics applyItalic
    simp only [heq, ne_eq, not_true_eq_false, if_false]
    split <;> rfl
  · intro h t j
    unfold strokeCurve trySynthetics applyItalic applyBold
    by_cases h1 : info.srcWeight = info.dstWeight
    · simp only [h1, ne_eq, not_true_eq_false, if_false]
    · have h3 : L.fixedWidth = false := h.resolve_left h1
      simp only [h1, h3, ne_eq, not_false_eq_true, if_true]
      split
      · rfl
      · simp only [Bool.false_eq_true, if_false, Option.map_some]

/-- At 14 and at 28 pixels. -/
example : (curve stemLib 14 fakeBold 0 noOutlines).map (·.1) = some (189, 18) ∧
    (curve stemLib 28 fakeBold 0 noOutlines).map (·.1) = some (253, -14) := by decide +kernel

end RichText
