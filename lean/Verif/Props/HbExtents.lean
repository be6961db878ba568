import Verif.Model.HbExtents
import Verif.Proof.FaceMetrics
import Verif.Props.HarfbuzzFont
import Verif.Props.FaceMetrics
/-!
C126: what HarfBuzz is told about lines, vertical origins and kerning.
-/
namespace RichText

theorem timesMult_small {scale v : Int} (hs : 0 ≤ scale) (hv : v.natAbs < 2 ^ 24) : timesMult scale v = some v := by
  unfold timesMult
  have h1 : scaleSign scale = 1 := by unfold scaleSign; rw [if_neg (by omega)]
  rw [h1, Int.one_mul, floatInt_small hv]
  unfold floatToInt
  rw [if_pos (by omega)]

/-- What a request for a size sets. -/
theorem FaceUnits.request_set {f : FaceUnits} {h : Int} {m : SizeMetrics} (hm : f.request h = some m) :
    m.ascender = pixCeil (ftMulFix f.ascender m.yScale) * 64 ∧ m.descender = pixFloor (ftMulFix f.descender m.yScale) * 64 := by
  unfold FaceUnits.request at hm
  simp only at hm
  split at hm
  · cases hm
  · split at hm
    · cases hm
    · rw [← Option.some.inj hm]
      exact ⟨rfl, rfl⟩

/-- A bound in whole numbers as one in fractions. -/
theorem scaled_rat {e u ext A : Int} (hx : 0 < ext) (h1 : 4 * (ext * A - 64 * (e * u)) ≤ 3 * ext)
    (h2 : -(3 * ext) ≤ 4 * (ext * A - 64 * (e * u))) :
    64 * (e : Rat) * u / ext - 3 / 4 ≤ A ∧ (A : Rat) ≤ 64 * (e : Rat) * u / ext + 3 / 4 := by
  have hx' : (0 : Rat) < ext := by exact_mod_cast hx
  have h1' : (4 : Rat) * (ext * A - 64 * (e * u)) ≤ 3 * ext := by exact_mod_cast h1
  have h2' : -((3 : Rat) * ext) ≤ 4 * (ext * A - 64 * (e * u)) := by exact_mod_cast h2
  constructor
  · rw [sub_le_iff_le_add, div_le_iff₀ hx']
    nlinarith
  · rw [← sub_le_iff_le_add, le_div_iff₀ hx']
    nlinarith

/-- C126, the extents of a line.  For a usual face at a size below 65536 whose line height is at most three times its extent,
the callback is defined.  The ascender and the descender are the face's, scaled to the size and rounded to a 64th of a pixel;
together they are the size up to one 64th.  The ascender, the descender and the gap add up to the scaled height of the face.
The metrics the project lays lines out with are these rounded outwards, by less than a pixel on each side. -/
theorem C126_extents_partial (f : SizedFont) (m : SizeMetrics) (hf : f.face.Usual) (hs : f.size < 65536) (hm : f.metrics = some m)
    (height sizeHeight scale : Int) (hsc : 0 ≤ scale) (hh : 0 ≤ height ∧ height ≤ 32767)
    (hh3 : height ≤ 3 * (f.face.ascender - f.face.descender)) (size : Nat)
    (hsize : effectiveSize f.size f.smallCaps f.subSuper = some size) :
    ∃ x, hExtents f.face m height sizeHeight scale = some x ∧
      (64 * (size : Rat) * f.face.ascender / (f.face.ascender - f.face.descender) - 3 / 4 ≤ x.ascender ∧
        (x.ascender : Rat) ≤ 64 * (size : Rat) * f.face.ascender / (f.face.ascender - f.face.descender) + 3 / 4) ∧
      (64 * (size : Rat) * f.face.descender / (f.face.ascender - f.face.descender) - 3 / 4 ≤ x.descender ∧
        (x.descender : Rat) ≤ 64 * (size : Rat) * f.face.descender / (f.face.ascender - f.face.descender) + 3 / 4) ∧
      (64 * (size : Rat) * height / (f.face.ascender - f.face.descender) - 3 / 4 ≤ x.ascender - x.descender + x.lineGap ∧
        (x.ascender - x.descender + x.lineGap : Rat) ≤
          64 * (size : Rat) * height / (f.face.ascender - f.face.descender) + 3 / 4) ∧
      (64 * (size : Int) - 1 ≤ x.ascender - x.descender ∧ x.ascender - x.descender ≤ 64 * size + 1) ∧
      (x.ascender ≤ m.ascender ∧ m.ascender < x.ascender + 64) ∧
      (m.descender ≤ x.descender ∧ x.descender < m.descender + 64) := by
  obtain ⟨e, a, d, A, D, he, hle, h, ⟨ha1, ha2⟩, hd1, hd2⟩ := SizedFont.sized hf hs hm
  cases hsize.symm.trans he
  have hm' : f.face.request ((size : Int) * 64) = some m := by
    unfold SizedFont.metrics at hm
    rw [hsize] at hm
    exact hm
  obtain ⟨r1, r2⟩ := FaceUnits.request_set hm'
  have hpos : 0 < f.face.extent := hf.height
  have hy := h.scale
  have u := scaled_bound (u := f.face.ascender) hpos hy ⟨by have := hf.ascender; omega, by have := hf.ascender; omega⟩
  have v := scaled_bound (u := f.face.descender) hpos hy ⟨by have := hf.descender; omega, by have := hf.descender; omega⟩
  have w := scaled_bound (u := height) hpos hy ⟨by omega, by omega⟩
  obtain ⟨c1, c2⟩ := pixCeil_bound (ftMulFix f.face.ascender m.yScale)
  obtain ⟨d1, d2⟩ := pixFloor_bound (ftMulFix f.face.descender m.yScale)
  have q1 := h.ascender
  have q2 := h.descender
  obtain ⟨s1, s2⟩ := ftMulFix_bound f.face.ascender m.yScale
  obtain ⟨t1, t2⟩ := ftMulFix_bound f.face.descender m.yScale
  obtain ⟨b1, b2⟩ := ftDivFix_bound (a := (size : Int) * 64) hpos
  rw [← hy] at b1 b2
  have hle' : f.face.extent ≤ 65535 := by have := hf.ascender; have := hf.descender; unfold FaceUnits.extent; omega
  have hsum : 64 * (size : Int) - 1 ≤ ftMulFix f.face.ascender m.yScale - ftMulFix f.face.descender m.yScale ∧
      ftMulFix f.face.ascender m.yScale - ftMulFix f.face.descender m.yScale ≤ 64 * size + 1 := by
    have hs : f.face.ascender * m.yScale - f.face.descender * m.yScale = m.yScale * f.face.extent := by
      unfold FaceUnits.extent; ring
    generalize ftMulFix f.face.ascender m.yScale = A at *
    generalize ftMulFix f.face.descender m.yScale = D at *
    generalize f.face.ascender * m.yScale = P at *
    generalize f.face.descender * m.yScale = Q at *
    generalize m.yScale * f.face.extent = R at *
    omega
  have hgap : -1 ≤ ftMulFix height m.yScale ∧ ftMulFix height m.yScale ≤ 192 * (size : Int) + 1 := by
    have hh3' : height ≤ 3 * f.face.extent := hh3
    have e0 : 0 ≤ (size : Int) * height := mul_nonneg (by omega) hh.1
    have e1 : (size : Int) * height ≤ size * (3 * f.face.extent) := mul_le_mul_of_nonneg_left hh3' (by omega)
    obtain ⟨w1, w2⟩ := w
    generalize ftMulFix height m.yScale = G at *
    constructor
    · by_contra hc
      have : f.face.extent * G ≤ f.face.extent * (-2) := mul_le_mul_of_nonneg_left (by omega) hpos.le
      nlinarith
    · by_contra hc
      have : f.face.extent * (192 * (size : Int) + 2) ≤ f.face.extent * G := mul_le_mul_of_nonneg_left (by omega) hpos.le
      nlinarith
  have hup : f.face.upem ≠ 0 := by have := hf.upem; omega
  have hcast : ((f.face.ascender : Rat) - f.face.descender) = ((f.face.extent : Int) : Rat) := by
    unfold FaceUnits.extent; push_cast; ring
  refine ⟨⟨ftMulFix f.face.ascender m.yScale, ftMulFix f.face.descender m.yScale,
    ftMulFix height m.yScale - (ftMulFix f.face.ascender m.yScale - ftMulFix f.face.descender m.yScale)⟩, ?_, ?_, ?_, ?_, hsum,
    ⟨by dsimp only; omega, by dsimp only; omega⟩, ⟨by dsimp only; omega, by dsimp only; omega⟩⟩
  · unfold hExtents
    simp only [if_pos hup]
    rw [timesMult_small hsc (by omega), timesMult_small hsc (by omega), timesMult_small hsc (by omega)]
  · rw [hcast]; exact_mod_cast scaled_rat hpos u.1 u.2
  · rw [hcast]; exact_mod_cast scaled_rat hpos v.1 v.2
  · rw [hcast]
    have := scaled_rat hpos w.1 w.2
    push_cast at this ⊢
    constructor <;> linarith [this.1, this.2]

/-- C126 for the lines of plain text: the layout's line is as high as HarfBuzz's, or higher by one pixel, up to the
64th of a pixel that rounding takes. -/
theorem C126_lines (f : SizedFont) (m : SizeMetrics) (hf : f.face.Usual) (hs : f.size < 65536) (hm : f.metrics = some m)
    (hc : f.smallCaps = false) (hsub : f.subscript = false) (hsup : f.superscript = false)
    (height sizeHeight scale : Int) (hsc : 0 ≤ scale) (hh : 0 ≤ height ∧ height ≤ 32767)
    (hh3 : height ≤ 3 * (f.face.ascender - f.face.descender)) :
    ∃ x, hExtents f.face m height sizeHeight scale = some x ∧
      -(1 / 64 : Rat) ≤ f.lineHeight m - (x.ascender - x.descender : Rat) / 64 ∧
      f.lineHeight m - (x.ascender - x.descender : Rat) / 64 ≤ 1 + 1 / 64 := by
  have hss : f.subSuper = false := by simp [SizedFont.subSuper, hsub, hsup]
  have hsize : effectiveSize f.size f.smallCaps f.subSuper = some f.size := by
    rw [hc, hss, effective_plain (by omega)]
  obtain ⟨x, h1, _, _, _, ⟨h5, h6⟩, _⟩ := C126_extents_partial f m hf hs hm height sizeHeight scale hsc hh hh3 f.size hsize
  have h5' : 64 * (f.size : Rat) - 1 ≤ x.ascender - x.descender := by exact_mod_cast h5
  have h6' : (x.ascender - x.descender : Rat) ≤ 64 * f.size + 1 := by exact_mod_cast h6
  refine ⟨x, h1, ?_⟩
  have hp := C106_height_partial f m hf hs hsub hsup hm
  rw [hc] at hp
  simp only [Bool.false_eq_true, if_false] at hp
  rcases hp with hp | hp <;> rw [hp] <;> constructor <;> linarith

/-- C126 is violated for large gaps: the numbers go through `float`, which has 24 bits, so that the three parts of a
line no longer add up to its height. -/
theorem C126_extents_violated : ∃ (f : FaceUnits) (m : SizeMetrics) (height : Int) (x : HbExtents),
    f.Usual ∧ f.request (65535 * 64) = some m ∧ 0 ≤ height ∧ height ≤ 32767 ∧ hExtents f m height 0 1 = some x ∧
    x.ascender - x.descender + x.lineGap ≠ ftMulFix height m.yScale := by
  refine ⟨⟨1000, 800, -200, 0, 0, 0, 0⟩, ⟨274873713, 65535, 3355392, -838848⟩, 5003, ⟨3355392, -838848, 16789544⟩,
    ?_, by decide +kernel, by decide, by decide, by decide +kernel, by decide +kernel⟩
  constructor <;> decide

/-- C126, the origin of a glyph in vertical text.  HarfBuzz draws the glyph at minus the origin; the left edge of the box is
then at the glyph's vertical bearing, and its top the other bearing below the pen. -/
theorem C126_origin_partial (scaleX scaleY : Int) (b : Bearings) (hx : 0 ≤ scaleX) (hy : 0 ≤ scaleY)
    (h1 : b.horiX.natAbs < 2 ^ 23) (h2 : b.horiY.natAbs < 2 ^ 23) (h3 : b.vertX.natAbs < 2 ^ 23) (h4 : b.vertY.natAbs < 2 ^ 23) :
    ∃ x y, vOrigin scaleX scaleY b = some (x, y) ∧ b.horiX - x = b.vertX ∧ b.horiY - y = -b.vertY := by
  refine ⟨b.horiX - b.vertX, b.horiY - (-b.vertY), ?_, by omega, by omega⟩
  unfold vOrigin
  rw [timesMult_small hx (by omega), timesMult_small hy (by omega)]

/-- With a negative scale of HarfBuzz's font the sign of the origin is turned, and the box lies elsewhere. -/
theorem C126_origin_violated : vOrigin (-1) 1 ⟨64, 640, -256, 128⟩ = some (-320, 768) ∧ (64 : Int) - -320 ≠ -256 := by
  decide +kernel

/-- C126, kerning: the project never tells HarfBuzz how many pixels the font has, so the kerning is FreeType's without fitting
to the grid, and none on an error. -/
theorem C126_kerning (kerning : Bool → Option Int) :
    (∀ k, kerning false = some k → hKerning 0 kerning = k) ∧ (kerning false = none → hKerning 0 kerning = 0) := by
  constructor
  · intro k h; unfold hKerning; simp [h]
  · intro h; unfold hKerning; simp [h]

example : hKerning 0 (fun fitted => some (if fitted then -64 else -37)) = -37 ∧
    hKerning 16 (fun fitted => some (if fitted then -64 else -37)) = -64 := by decide

example : vOrigin 1024 1024 ⟨64, 640, -256, 128⟩ = some (320, 768) := by decide +kernel

/-- The hypotheses are met by Noto Sans at 48 pixels. -/
example : notoSans.Usual ∧ (noto 48).metrics.bind (fun m => hExtents notoSans m 1362 0 3072) = some ⟨2411, -661, 0⟩ ∧
    effectiveSize 48 false false = some 48 ∧ (1362 : Int) ≤ 3 * (1069 - -293) ∧
    (noto 48).metrics.map (fun m => (m.ascender, m.descender)) = some (2432, -704) :=
  ⟨notoSans_usual, by decide +kernel, by decide +kernel, by decide, by decide +kernel⟩

end RichText
