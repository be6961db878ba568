import Verif.Model.Shader
import Mathlib.Tactic.Linarith
import Mathlib.Tactic.Ring
import Mathlib.Tactic.FieldSimp
import Mathlib.Tactic.LinearCombination
/-! Proofs about the pixels of rectangles. -/
namespace RichText

theorem onSide_iff (tie : Pt → Pt → Bool) (a b p : Pt) :
    onSide tie a b p = true ↔ 0 < edge a b p ∨ (edge a b p = 0 ∧ tie a b = true) := by
  simp [onSide]

/-- The bounds of the part of a rectangle below, and above, its diagonal. -/
theorem below_diagonal {w h s t : Rat} (hw : 0 < w) (hh : 0 < h) (hs : 0 < s) (ht : 0 < t) (hm : 0 ≤ h * w - w * t - h * s) :
    s < w ∧ t < h := by
  have h1 : 0 < w * t := mul_pos hw ht
  have h2 : 0 < h * s := mul_pos hh hs
  constructor
  · by_contra hc
    have : h * w ≤ h * s := mul_le_mul_of_nonneg_left (not_lt.1 hc) hh.le
    linarith
  · by_contra hc
    have : w * h ≤ w * t := mul_le_mul_of_nonneg_left (not_lt.1 hc) hw.le
    linarith [mul_comm w h]

theorem above_diagonal {w h s t : Rat} (hw : 0 < w) (hh : 0 < h) (hs : s < w) (ht : t < h) (hm : h * w - w * t - h * s ≤ 0) :
    0 < s ∧ 0 < t := by
  have h1 : 0 < w * (h - t) := mul_pos hw (by linarith)
  have h2 : 0 < h * (w - s) := mul_pos hh (by linarith)
  constructor
  · by_contra hc
    have : h * s ≤ 0 := mul_nonpos_of_nonneg_of_nonpos hh.le (not_lt.1 hc)
    nlinarith
  · by_contra hc
    have : w * t ≤ 0 := mul_nonpos_of_nonneg_of_nonpos hw.le (not_lt.1 hc)
    nlinarith

/-- The two triangles of a rectangle at a point that is on none of its four sides. -/
theorem two_triangles (tie : Pt → Pt → Bool) (ht : ∀ a b, a ≠ b → tie a b = !tie b a) {A B C D : Rat} (hAB : A ≤ B)
    (hCD : C ≤ D) {p : Pt} (h1 : p.1 ≠ A) (h2 : p.1 ≠ B) (h3 : p.2 ≠ C) (h4 : p.2 ≠ D) (pos tex : Nat → Pt)
    (p0 : pos 0 = (B, C)) (p1 : pos 1 = (A, C)) (p2 : pos 2 = (A, D)) (p3 : pos 3 = (B, C)) (p4 : pos 4 = (B, D))
    (p5 : pos 5 = (A, D)) (t0 : tex 0 = (vertexTex x 0)) (t1 : tex 1 = (vertexTex x 1)) (t2 : tex 2 = (vertexTex x 2))
    (t3 : tex 3 = (vertexTex x 3)) (t4 : tex 4 = (vertexTex x 4)) (t5 : tex 5 = (vertexTex x 5)) :
    triangleFragments tie pos tex 0 p ++ triangleFragments tie pos tex 3 p =
      if A < p.1 ∧ p.1 < B ∧ C < p.2 ∧ p.2 < D then
        [(x.1 + x.2.2.1 * ((p.1 - A) / (B - A)), x.2.1 + x.2.2.2 * ((D - p.2) / (D - C)))]
      else [] := by
  have b : rectBase 0 = (1, 1) ∧ rectBase 1 = (0, 1) ∧ rectBase 2 = (0, 0) ∧ rectBase 3 = (1, 1) ∧ rectBase 4 = (1, 0) ∧
      rectBase 5 = (0, 0) := by decide +kernel
  obtain ⟨b0, b1, b2, b3, b4, b5⟩ := b
  obtain ⟨u, v, uw, vh⟩ := x
  simp only [vertexTex, corner, b0, b1, b2, b3, b4, b5] at t0 t1 t2 t3 t4 t5
  unfold triangleFragments
  simp only [Nat.zero_add, Nat.reduceAdd, p0, p1, p2, p3, p4, p5, t0, t1, t2, t3, t4, t5]
  have a1 : edge (B, C) (A, C) (A, D) = -((B - A) * (D - C)) := by simp only [edge]; ring
  have a2 : edge (B, C) (B, D) (A, D) = (B - A) * (D - C) := by simp only [edge]; ring
  by_cases hz : (B - A) * (D - C) = 0
  · have c1 : covers tie (B, C) (A, C) (A, D) p = false := by simp [covers, a1, hz]
    have c2 : covers tie (B, C) (B, D) (A, D) p = false := by simp [covers, a2, hz]
    have hf : ¬ (A < p.1 ∧ p.1 < B ∧ C < p.2 ∧ p.2 < D) := by
      rintro ⟨k1, k2, k3, k4⟩
      rcases mul_eq_zero.1 hz with h | h <;> linarith
    simp [c1, c2, hf]
  · have hw : 0 < B - A := lt_of_le_of_ne (by linarith) fun h => hz (by rw [← h, zero_mul])
    have hh : 0 < D - C := lt_of_le_of_ne (by linarith) fun h => hz (by rw [← h, mul_zero])
    have harea : 0 < (B - A) * (D - C) := mul_pos hw hh
    have e02 : edge (B, C) (A, D) p = (D - C) * (B - A) - (B - A) * (p.2 - C) - (D - C) * (p.1 - A) := by
      simp only [edge]; ring
    have e21 : edge (A, D) (A, C) p = (D - C) * (p.1 - A) := by simp only [edge]; ring
    have e10 : edge (A, C) (B, C) p = (B - A) * (p.2 - C) := by simp only [edge]; ring
    have e34 : edge (B, C) (B, D) p = (D - C) * (B - p.1) := by simp only [edge]; ring
    have e45 : edge (B, D) (A, D) p = (B - A) * (D - p.2) := by simp only [edge]; ring
    have e53 : edge (A, D) (B, C) p = -((D - C) * (B - A) - (B - A) * (p.2 - C) - (D - C) * (p.1 - A)) := by
      simp only [edge]; ring
    have hne : ((B, C) : Pt) ≠ (A, D) := fun h => by
      have := congrArg Prod.fst h
      simp only at this
      linarith
    have htie := ht (B, C) (A, D) hne
    have c1 : covers tie (B, C) (A, C) (A, D) p = true ↔
        (0 < (D - C) * (B - A) - (B - A) * (p.2 - C) - (D - C) * (p.1 - A) ∨
          ((D - C) * (B - A) - (B - A) * (p.2 - C) - (D - C) * (p.1 - A) = 0 ∧ tie (B, C) (A, D) = true)) ∧
        0 < p.1 - A ∧ 0 < p.2 - C := by
      have k1 : onSide tie (A, D) (A, C) p = true ↔ 0 < p.1 - A := by
        rw [onSide_iff, e21]
        constructor
        · rintro (h | ⟨h, _⟩)
          · exact pos_of_mul_pos_right h hh.le
          · rcases mul_eq_zero.1 h with h | h
            · linarith
            · exact absurd (by linarith) h1
        · intro h; exact Or.inl (mul_pos hh h)
      have k2 : onSide tie (A, C) (B, C) p = true ↔ 0 < p.2 - C := by
        rw [onSide_iff, e10]
        constructor
        · rintro (h | ⟨h, _⟩)
          · exact pos_of_mul_pos_right h hw.le
          · rcases mul_eq_zero.1 h with h | h
            · linarith
            · exact absurd (by linarith) h3
        · intro h; exact Or.inl (mul_pos hw h)
      unfold covers
      rw [a1, if_neg (by linarith), if_pos (by linarith), Bool.and_eq_true, Bool.and_eq_true, k1, k2, onSide_iff, e02, and_assoc]
    have c2 : covers tie (B, C) (B, D) (A, D) p = true ↔
        (0 < B - p.1 ∧ 0 < D - p.2) ∧
        (0 < -((D - C) * (B - A) - (B - A) * (p.2 - C) - (D - C) * (p.1 - A)) ∨
          (-((D - C) * (B - A) - (B - A) * (p.2 - C) - (D - C) * (p.1 - A)) = 0 ∧ tie (A, D) (B, C) = true)) := by
      have k1 : onSide tie (B, C) (B, D) p = true ↔ 0 < B - p.1 := by
        rw [onSide_iff, e34]
        constructor
        · rintro (h | ⟨h, _⟩)
          · exact pos_of_mul_pos_right h hh.le
          · rcases mul_eq_zero.1 h with h | h
            · linarith
            · exact absurd (by linarith) h2
        · intro h; exact Or.inl (mul_pos hh h)
      have k2 : onSide tie (B, D) (A, D) p = true ↔ 0 < D - p.2 := by
        rw [onSide_iff, e45]
        constructor
        · rintro (h | ⟨h, _⟩)
          · exact pos_of_mul_pos_right h hw.le
          · rcases mul_eq_zero.1 h with h | h
            · linarith
            · exact absurd (by linarith) h4
        · intro h; exact Or.inl (mul_pos hw h)
      unfold covers
      rw [a2, if_pos harea, Bool.and_eq_true, Bool.and_eq_true, k1, k2, onSide_iff, e53]
    generalize hm : (D - C) * (B - A) - (B - A) * (p.2 - C) - (D - C) * (p.1 - A) = m at c1 c2
    have hw' : B - A ≠ 0 := hw.ne'
    have hh' : D - C ≠ 0 := hh.ne'
    have r1 : (p.1 - A) / (B - A) * (B - A) = p.1 - A := div_mul_cancel₀ _ hw'
    have r2 : (D - p.2) / (D - C) * (D - C) = D - p.2 := div_mul_cancel₀ _ hh'
    by_cases hin : A < p.1 ∧ p.1 < B ∧ C < p.2 ∧ p.2 < D
    · obtain ⟨i1, i2, i3, i4⟩ := hin
      rw [if_pos (c := A < p.1 ∧ p.1 < B ∧ C < p.2 ∧ p.2 < D) ⟨i1, i2, i3, i4⟩]
      have x1 : 0 < p.1 - A ∧ 0 < p.2 - C := ⟨by linarith, by linarith⟩
      have x2 : 0 < B - p.1 ∧ 0 < D - p.2 := ⟨by linarith, by linarith⟩
      have first : (0 < m ∨ (m = 0 ∧ tie (B, C) (A, D) = true)) → covers tie (B, C) (A, C) (A, D) p = true ∧
          covers tie (B, C) (B, D) (A, D) p = false := by
        intro h
        refine ⟨c1.2 ⟨h, x1⟩, Bool.eq_false_iff.2 fun h2 => ?_⟩
        obtain ⟨_, h2⟩ := c2.1 h2
        rcases h with h | ⟨h, h'⟩
        · rcases h2 with h2 | ⟨h2, _⟩ <;> linarith
        · rcases h2 with h2 | ⟨_, h2⟩
          · linarith
          · rw [h', h2] at htie; cases htie
      have second : ¬ (0 < m ∨ (m = 0 ∧ tie (B, C) (A, D) = true)) → covers tie (B, C) (A, C) (A, D) p = false ∧
          covers tie (B, C) (B, D) (A, D) p = true := by
        intro h
        refine ⟨Bool.eq_false_iff.2 fun h2 => h (c1.1 h2).1, c2.2 ⟨x2, ?_⟩⟩
        rw [not_or] at h
        rcases lt_or_eq_of_le (not_lt.1 h.1) with h3 | h3
        · exact Or.inl (by linarith)
        · refine Or.inr ⟨by linarith, ?_⟩
          have : tie (B, C) (A, D) ≠ true := fun h4 => h.2 ⟨h3, h4⟩
          simp only [Bool.not_eq_true] at this
          rw [this] at htie
          simpa using htie.symm
      by_cases hf : 0 < m ∨ (m = 0 ∧ tie (B, C) (A, D) = true)
      · obtain ⟨k1, k2⟩ := first hf
        simp only [k1, k2, if_true, Bool.false_eq_true, if_false, List.append_nil, List.cons.injEq, Prod.mk.injEq, and_true]
        constructor
        · rw [interpolate, a1, div_eq_iff (neg_ne_zero.2 hz)]; simp only [edge]; linear_combination (uw * (D - C)) * r1
        · rw [interpolate, a1, div_eq_iff (neg_ne_zero.2 hz)]; simp only [edge]; linear_combination (vh * (B - A)) * r2
      · obtain ⟨k1, k2⟩ := second hf
        simp only [k1, k2, if_true, Bool.false_eq_true, if_false, List.nil_append, List.cons.injEq, Prod.mk.injEq, and_true]
        constructor
        · rw [interpolate, a2, div_eq_iff hz]; simp only [edge]; linear_combination (-(uw * (D - C))) * r1
        · rw [interpolate, a2, div_eq_iff hz]; simp only [edge]; linear_combination (-(vh * (B - A))) * r2
    · rw [if_neg hin]
      have k1 : covers tie (B, C) (A, C) (A, D) p = false := by
        refine Bool.eq_false_iff.2 fun h => hin ?_
        obtain ⟨h, x1, x2⟩ := c1.1 h
        have hm0 : 0 ≤ m := by rcases h with h | ⟨h, _⟩ <;> linarith
        obtain ⟨y1, y2⟩ := below_diagonal hw hh x1 x2 (hm ▸ hm0)
        exact ⟨by linarith, by linarith, by linarith, by linarith⟩
      have k2 : covers tie (B, C) (B, D) (A, D) p = false := by
        refine Bool.eq_false_iff.2 fun h => hin ?_
        obtain ⟨⟨x1, x2⟩, h⟩ := c2.1 h
        have hm0 : m ≤ 0 := by rcases h with h | ⟨h, _⟩ <;> linarith
        obtain ⟨y1, y2⟩ := above_diagonal (s := p.1 - A) (t := p.2 - C) hw hh (by linarith) (by linarith) (hm ▸ hm0)
        exact ⟨by linarith, by linarith, by linarith, by linarith⟩
      simp [k1, k2]

theorem window_pos {W H : Rat} (hW : W ≠ 0) (hH : H ≠ 0) (x y : Rat) :
    toWindow (W, H) (toClip (1 / W, 1 / H) (x, y)) = (x, H - y) := by
  simp only [toWindow, toClip, Prod.mk.injEq]
  constructor <;> field_simp <;> ring

/-- The pixels of a rectangle. -/
theorem rect_fragments (tie : Pt → Pt → Bool) (ht : ∀ a b, a ≠ b → tie a b = !tie b a) {W H : Rat} (hW : 0 < W) (hH : 0 < H)
    (q : Quad Vec4) (hw : 0 ≤ q.width) (hh : 0 ≤ q.height) (i j : Int) :
    quadFragments tie .rect (W, H) (W, H) q i j =
      if ⌊q.x⌋ ≤ i ∧ i < ⌊q.x + q.width⌋ ∧ ⌊q.y⌋ ≤ j ∧ j < ⌊q.y + q.height⌋ then
        [(q.tex.u + q.tex.uw * ((i + 1 / 2 - ⌊q.x⌋) / (⌊q.x + q.width⌋ - ⌊q.x⌋)),
          q.tex.v + q.tex.vh * ((j + 1 / 2 - ⌊q.y⌋) / (⌊q.y + q.height⌋ - ⌊q.y⌋)))]
      else [] := by
  have b : rectBase 0 = (1, 1) ∧ rectBase 1 = (0, 1) ∧ rectBase 2 = (0, 0) ∧ rectBase 3 = (1, 1) ∧ rectBase 4 = (1, 0) ∧
      rectBase 5 = (0, 0) := by decide +kernel
  obtain ⟨b0, b1, b2, b3, b4, b5⟩ := b
  have half : ∀ k n : Int, ((k : Rat) + 1 / 2) ≠ (n : Rat) := by
    intro k n h
    have : (2 * k + 1 : Int) = 2 * n := by
      have : (2 * (k : Rat) + 1) = 2 * (n : Rat) := by linarith
      exact_mod_cast this
    omega
  have lt_iff : ∀ k n : Int, ((n : Rat) < (k : Rat) + 1 / 2) ↔ n ≤ k := by
    intro k n
    constructor
    · intro h
      by_contra hc
      have : k + 1 ≤ n := by omega
      have : (k : Rat) + 1 ≤ (n : Rat) := by exact_mod_cast this
      linarith
    · intro h
      have : (n : Rat) ≤ (k : Rat) := by exact_mod_cast h
      linarith
  have gt_iff : ∀ k n : Int, ((k : Rat) + 1 / 2 < (n : Rat)) ↔ k < n := by
    intro k n
    constructor
    · intro h
      by_contra hc
      have : (n : Rat) ≤ (k : Rat) := by exact_mod_cast not_lt.1 hc
      linarith
    · intro h
      have : k + 1 ≤ n := by omega
      have : (k : Rat) + 1 ≤ (n : Rat) := by exact_mod_cast this
      linarith
  have fx : (⌊q.x⌋ : Rat) ≤ (⌊q.x + q.width⌋ : Rat) := by exact_mod_cast Int.floor_le_floor (by linarith)
  have fy : (⌊q.y⌋ : Rat) ≤ (⌊q.y + q.height⌋ : Rat) := by exact_mod_cast Int.floor_le_floor (by linarith)
  have hpos : ∀ v, toWindow (W, H) (vertexPos .rect (1 / W, 1 / H) q.extents v) =
      ((⌊(corner (rectBase v) q.extents).1⌋ : Rat), H - (⌊(corner (rectBase v) q.extents).2⌋ : Rat)) := by
    intro v
    simp only [vertexPos]
    exact window_pos hW.ne' hH.ne' _ _
  unfold quadFragments
  simp only [hpos]
  have key := two_triangles tie ht fx (C := H - (⌊q.y + q.height⌋ : Rat)) (D := H - (⌊q.y⌋ : Rat)) (by linarith)
    (p := pixelCentre (W, H) i j) (by simp only [pixelCentre]; exact half _ _) (by simp only [pixelCentre]; exact half _ _)
    (by simp only [pixelCentre]; intro h; exact half j ⌊q.y + q.height⌋ (by linarith))
    (by simp only [pixelCentre]; intro h; exact half j ⌊q.y⌋ (by linarith))
    (fun v => ((⌊(corner (rectBase v) q.extents).1⌋ : Rat), H - (⌊(corner (rectBase v) q.extents).2⌋ : Rat)))
    (vertexTex q.tex.coords) (x := q.tex.coords)
    (by simp [b0, corner, Quad.extents, add_comm]) (by simp [b1, corner, Quad.extents, add_comm])
    (by simp [b2, corner, Quad.extents]) (by simp [b3, corner, Quad.extents, add_comm])
    (by simp [b4, corner, Quad.extents, add_comm]) (by simp [b5, corner, Quad.extents]) rfl rfl rfl rfl rfl rfl
  rw [key]
  have hc : ((⌊q.x⌋ : Rat) < (pixelCentre (W, H) i j).1 ∧ (pixelCentre (W, H) i j).1 < (⌊q.x + q.width⌋ : Rat) ∧
      H - (⌊q.y + q.height⌋ : Rat) < (pixelCentre (W, H) i j).2 ∧ (pixelCentre (W, H) i j).2 < H - (⌊q.y⌋ : Rat)) ↔
      (⌊q.x⌋ ≤ i ∧ i < ⌊q.x + q.width⌋ ∧ ⌊q.y⌋ ≤ j ∧ j < ⌊q.y + q.height⌋) := by
    simp only [pixelCentre]
    rw [lt_iff, gt_iff, ← lt_iff j, ← gt_iff j]
    constructor
    · rintro ⟨h1, h2, h3, h4⟩; exact ⟨h1, h2, by linarith, by linarith⟩
    · rintro ⟨h1, h2, h3, h4⟩; exact ⟨h1, h2, by linarith, by linarith⟩
  have e1 : H - (⌊q.y⌋ : Rat) - (H - ((j : Rat) + 1 / 2)) = (j : Rat) + 1 / 2 - ⌊q.y⌋ := by ring
  have e2 : H - (⌊q.y⌋ : Rat) - (H - (⌊q.y + q.height⌋ : Rat)) = (⌊q.y + q.height⌋ : Rat) - ⌊q.y⌋ := by ring
  rw [if_congr hc rfl rfl]
  simp only [pixelCentre, TexRect.coords, e1, e2]

/-- The pixels of a rectangle whose corners are not rounded. -/
theorem msdf_fragments (tie : Pt → Pt → Bool) (ht : ∀ a b, a ≠ b → tie a b = !tie b a) {W H : Rat} (hW : 0 < W) (hH : 0 < H)
    (q : Quad Vec4) (hw : 0 ≤ q.width) (hh : 0 ≤ q.height) (i j : Int) (h1 : (i : Rat) + 1 / 2 ≠ q.x)
    (h2 : (i : Rat) + 1 / 2 ≠ q.x + q.width) (h3 : (j : Rat) + 1 / 2 ≠ q.y) (h4 : (j : Rat) + 1 / 2 ≠ q.y + q.height) :
    quadFragments tie .msdf (W, H) (W, H) q i j =
      if q.x < i + 1 / 2 ∧ (i : Rat) + 1 / 2 < q.x + q.width ∧ q.y < j + 1 / 2 ∧ (j : Rat) + 1 / 2 < q.y + q.height then
        [(q.tex.u + q.tex.uw * ((i + 1 / 2 - q.x) / q.width), q.tex.v + q.tex.vh * ((j + 1 / 2 - q.y) / q.height))]
      else [] := by
  have b : rectBase 0 = (1, 1) ∧ rectBase 1 = (0, 1) ∧ rectBase 2 = (0, 0) ∧ rectBase 3 = (1, 1) ∧ rectBase 4 = (1, 0) ∧
      rectBase 5 = (0, 0) := by decide +kernel
  obtain ⟨b0, b1, b2, b3, b4, b5⟩ := b
  have hpos : ∀ v, toWindow (W, H) (vertexPos .msdf (1 / W, 1 / H) q.extents v) =
      ((corner (rectBase v) q.extents).1, H - (corner (rectBase v) q.extents).2) := by
    intro v
    simp only [vertexPos]
    exact window_pos hW.ne' hH.ne' _ _
  unfold quadFragments
  simp only [hpos]
  have key := two_triangles tie ht (A := q.x) (B := q.x + q.width) (by linarith) (C := H - (q.y + q.height)) (D := H - q.y)
    (by linarith) (p := pixelCentre (W, H) i j) h1 h2
    (by simp only [pixelCentre]; intro h; exact h4 (by linarith)) (by simp only [pixelCentre]; intro h; exact h3 (by linarith))
    (fun v => ((corner (rectBase v) q.extents).1, H - (corner (rectBase v) q.extents).2))
    (vertexTex q.tex.coords) (x := q.tex.coords)
    (by simp [b0, corner, Quad.extents, add_comm]) (by simp [b1, corner, Quad.extents, add_comm])
    (by simp [b2, corner, Quad.extents]) (by simp [b3, corner, Quad.extents, add_comm])
    (by simp [b4, corner, Quad.extents, add_comm]) (by simp [b5, corner, Quad.extents]) rfl rfl rfl rfl rfl rfl
  rw [key]
  have hc : (q.x < (pixelCentre (W, H) i j).1 ∧ (pixelCentre (W, H) i j).1 < q.x + q.width ∧
      H - (q.y + q.height) < (pixelCentre (W, H) i j).2 ∧ (pixelCentre (W, H) i j).2 < H - q.y) ↔
      (q.x < i + 1 / 2 ∧ (i : Rat) + 1 / 2 < q.x + q.width ∧ q.y < j + 1 / 2 ∧ (j : Rat) + 1 / 2 < q.y + q.height) := by
    simp only [pixelCentre]
    constructor
    · rintro ⟨h1, h2, h3, h4⟩; exact ⟨h1, h2, by linarith, by linarith⟩
    · rintro ⟨h1, h2, h3, h4⟩; exact ⟨h1, h2, by linarith, by linarith⟩
  have e1 : H - q.y - (H - ((j : Rat) + 1 / 2)) = (j : Rat) + 1 / 2 - q.y := by ring
  have e2 : H - q.y - (H - (q.y + q.height)) = q.height := by ring
  rw [if_congr hc rfl rfl]
  simp only [pixelCentre, TexRect.coords, e1, e2, add_sub_cancel_left]

end RichText
