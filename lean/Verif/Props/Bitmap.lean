import Verif.Proof.Bitmap
import Mathlib.Tactic.Linarith
import Mathlib.Tactic.Ring
import Mathlib.Algebra.Order.Field.Rat
/-!
C75: drawing into a bitmap changes exactly the rectangle drawn; C76: blending.
-/
namespace RichText

/-! ### C75 -/

/-- `fill_rect` sets exactly the pixels of the rectangle that are in the bitmap, if the corner is not
left of or above the bitmap and not right of it, and `y + height` does not wrap. -/
theorem C75_fill_partial (b : Bitmap) (hb : b.OK) (x y w h v : Nat) (hx : x ≤ b.width) (hy : y + h < 2 ^ 32) :
    ∃ b', b.fillRect x y w h v = some b' ∧ Drawn b b' x y w h fun _ _ => some v :=
  Bitmap.fillRect_spec hb hx (by omega)

/-- `blit` copies exactly the part of the source that is in the bitmap, under the same conditions. -/
theorem C75_blit_partial (b src : Bitmap) (hb : b.OK) (hs : src.OK) (x y : Nat) (hx : x ≤ b.width)
    (hy : y < 2 ^ 31) :
    ∃ b', b.blit src x y = some b' ∧
      Drawn b b' x y src.width src.height fun px py => src.pixel (px - x) (py - y) :=
  Bitmap.blit_spec hb hs hx (by have := hs.height; omega)

/-- `blit_alpha` combines exactly the part of the source that is in the bitmap with the bitmap, from
every corner for which the opposite corner has `int32_t` coordinates; each pixel is combined once. -/
theorem C75_blend (op : Nat → Nat → Option Nat) (hop : ∀ s t, (op s t).isSome) (b src : Bitmap) (hb : b.OK)
    (hs : src.OK) (x y : Int) (hx : -2 ^ 31 ≤ x) (hx2 : x + src.width < 2 ^ 31) (hy : -2 ^ 31 ≤ y)
    (hy2 : y + src.height < 2 ^ 31) :
    ∃ b', b.blitAlpha op src x y = some b' ∧ Drawn b b' x y src.width src.height fun px py =>
      (src.pixel ((px : Int) - x).toNat ((py : Int) - y).toNat).bind fun s => (b.pixel px py).bind fun t => op s t :=
  Bitmap.blitAlpha_spec hop hb hs hx hx2 hy hy2

/-- 3 columns and 2 rows. -/
def demoBitmap : Bitmap := ⟨3, 2, [1, 2, 3, 4, 5, 6]⟩

theorem demoBitmap_ok : demoBitmap.OK := ⟨rfl, by decide, by decide, by decide⟩

example : demoBitmap.fillRect 1 1 9 9 0 = some ⟨3, 2, [1, 2, 3, 4, 0, 0]⟩ ∧
    demoBitmap.blit ⟨2, 2, [7, 8, 9, 10]⟩ 2 0 = some ⟨3, 2, [1, 2, 7, 4, 5, 9]⟩ ∧
    demoBitmap.blitAlpha (fun s t => some (10 * s + t)) ⟨2, 2, [7, 8, 9, 10]⟩ (-1) 1 =
      some ⟨3, 2, [1, 2, 3, 84, 5, 6]⟩ := by decide +kernel

/-- Wherever the corner is, unless it is right of the bitmap, a rectangle of the full size is filled from the nearest corner with
coordinates that are not negative: it is moved instead of cut off. -/
theorem C75_fill_moved (b : Bitmap) (hb : b.OK) (x y : Int) (w h v : Nat) (hx : x ≤ b.width) (hy : y < 2 ^ 31) (hh : h ≤ 2 ^ 31) :
    ∃ b', b.fillRect x y w h v = some b' ∧ Drawn b b' (max 0 x) (max 0 y) w h fun _ _ => some v := by
  have he : b.fillRect x y w h v = b.fillRect ((max 0 x).toNat : Nat) ((max 0 y).toNat : Nat) w h v := by
    unfold Bitmap.fillRect
    rw [show max 0 (((max 0 x).toNat : Nat) : Int) = max 0 x by omega, show max 0 (((max 0 y).toNat : Nat) : Int) = max 0 y by omega]
  obtain ⟨b', h1, h2⟩ := Bitmap.fillRect_spec hb (x := (max 0 x).toNat) (y := (max 0 y).toNat) (w := w) (h := h) (v := v) (by omega) (by omega)
  rw [show (((max 0 x).toNat : Nat) : Int) = max 0 x by omega, show (((max 0 y).toNat : Nat) : Int) = max 0 y by omega] at h2
  exact ⟨b', he.trans h1, h2⟩

/-- The same for `blit`. -/
theorem C75_blit_moved (b src : Bitmap) (hb : b.OK) (hs : src.OK) (x y : Int) (hx : x ≤ b.width) (hy : y < 2 ^ 31) :
    ∃ b', b.blit src x y = some b' ∧ Drawn b b' (max 0 x) (max 0 y) src.width src.height fun px py =>
      src.pixel (px - (max 0 x).toNat) (py - (max 0 y).toNat) := by
  have he : b.blit src x y = b.blit src ((max 0 x).toNat : Nat) ((max 0 y).toNat : Nat) := by
    unfold Bitmap.blit
    rw [show max 0 (((max 0 x).toNat : Nat) : Int) = max 0 x by omega, show max 0 (((max 0 y).toNat : Nat) : Int) = max 0 y by omega]
  obtain ⟨b', h1, h2⟩ := Bitmap.blit_spec hb hs (x := (max 0 x).toNat) (y := (max 0 y).toNat) (by omega) (by have := hs.height; omega)
  rw [show (((max 0 x).toNat : Nat) : Int) = max 0 x by omega, show (((max 0 y).toNat : Nat) : Int) = max 0 y by omega] at h2
  exact ⟨b', he.trans h1, h2⟩

/-- Two columns from -1: columns 0 and 1 instead of column 0. -/
example : demoBitmap.fillRect (-1) (-7) 2 1 0 = some ⟨3, 2, [0, 0, 3, 4, 5, 6]⟩ := by decide +kernel

/-- A rectangle that starts left of the bitmap is filled as if it were moved to its edge: columns
right of the rectangle are filled. -/
theorem C75_fill_left_violated (b : Bitmap) (hb : b.OK) (x : Int) (hx : x < 0) (y w h v : Nat) (hy : y < b.height)
    (hy2 : y + h < 2 ^ 32) (hw : 0 < w) (hwW : w ≤ b.width) (hh : 0 < h) :
    ∃ b', b.fillRect x y w h v = some b' ∧ b'.pixel (w - 1) y = some v ∧ ¬ InRect x y w h (w - 1) y := by
  have he : b.fillRect x y w h v = b.fillRect (0 : Nat) y w h v := by
    unfold Bitmap.fillRect
    rw [show max 0 x = max 0 (((0 : Nat) : Int)) by omega]
  obtain ⟨b', h1, h2⟩ := Bitmap.fillRect_spec hb (x := 0) (y := y) (w := w) (h := h) (v := v) (by omega) (by omega)
  refine ⟨b', he.trans h1, ?_, ?_⟩
  · rw [h2.pixel _ _ (by omega) hy, if_pos (by unfold InRect; omega)]
  · unfold InRect; omega

/-- A picture that starts left of the bitmap is not cut off but moved to its edge. -/
theorem C75_blit_left_violated (b src : Bitmap) (hb : b.OK) (hs : src.OK) (x : Int) (hx : x < 0) (y : Nat)
    (hy : y < b.height) (hw : 0 < b.width) (hw2 : 0 < src.width) (hh : 0 < src.height) :
    ∃ b', b.blit src x y = some b' ∧ b'.pixel 0 y = src.pixel 0 0 := by
  have he : b.blit src x y = b.blit src (0 : Nat) y := by
    unfold Bitmap.blit
    rw [show max 0 x = max 0 (((0 : Nat) : Int)) by omega]
  have := hb.height
  have := hs.height
  obtain ⟨b', h1, h2⟩ := Bitmap.blit_spec hb hs (x := 0) (y := y) (by omega) (by omega)
  refine ⟨b', he.trans h1, ?_⟩
  rw [h2.pixel _ _ (by omega) hy, if_pos (by unfold InRect; omega), Nat.sub_self, Nat.sub_self]

/-- `m_width - x` wraps for a rectangle right of the bitmap: whatever is behind it in memory is
overwritten. -/
theorem C75_fill_right_violated (b : Bitmap) (hb : b.OK) (x y w h v : Nat) (hx : b.width < x) (hx2 : x < 2 ^ 31)
    (hw : 0 < w) (hh : 0 < h) (hy : y < b.height) (hy2 : y + h < 2 ^ 32) (hend : b.width * b.height ≤ y * b.width + x) :
    b.fillRect x y w h v = none := by
  obtain ⟨h1, h2, h3, h4⟩ := hb
  have e1 : (max 0 (x : Int)).toNat = x := by omega
  have e2 : (max 0 (y : Int)).toNat = y := by omega
  have e4 : asUInt32 ((y : Int) + h) = y + h := by
    rw [show (y : Int) + h = ((y + h : Nat) : Int) by omega]; exact asUInt32_nat (by omega)
  have e5 : asUInt32 ((y : Int) * b.width + x) = y * b.width + x := by
    rw [show (y : Int) * b.width + x = ((y * b.width + x : Nat) : Int) by push_cast; rfl]
    have := Nat.mul_le_mul_right b.width (show y + 1 ≤ b.height by omega)
    rw [Nat.succ_mul, Nat.mul_comm b.height] at this
    exact asUInt32_nat (by omega)
  have e3 : 0 < asUInt32 ((b.width : Int) - x) := by unfold asUInt32; omega
  unfold Bitmap.fillRect
  simp only [e1, e2, e4, e5]
  obtain ⟨n, hn⟩ : ∃ n, min (y + h) b.height - y = n + 1 := ⟨min (y + h) b.height - y - 1, by omega⟩
  obtain ⟨m, hm⟩ : ∃ m, min w (asUInt32 ((b.width : Int) - x)) = m + 1 := ⟨min w (asUInt32 ((b.width : Int) - x)) - 1, by omega⟩
  rw [hn, hm, fillRows, writeAt, if_neg (by simp), if_neg (by rw [List.length_replicate]; omega)]
  rfl

example : demoBitmap.fillRect 5 1 1 1 0 = none := C75_fill_right_violated _ demoBitmap_ok 5 1 1 1 0
  (by decide) (by decide) (by decide) (by decide) (by decide) (by decide) (by decide)

/-- Or the next row: a pixel right of the bitmap is set at the start of the row below. -/
theorem C75_fill_wrap_violated : demoBitmap.fillRect 4 0 1 1 0 = some ⟨3, 2, [1, 2, 3, 4, 0, 6]⟩ ∧
    ∀ px py, px < 3 → ¬ InRect 4 0 1 1 px py := by
  refine ⟨by decide +kernel, ?_⟩
  intro px py hpx; unfold InRect; omega

/-! ### C76 -/

/-- The colour channels of a blended colour are those of the source for an opaque source, of the
destination for a transparent one, and between them otherwise. -/
theorem C76_channels (s d : RatColor) (h0 : 0 ≤ s.a) (h1 : s.a ≤ 1) :
    (s.a = 1 → s.blend d = s) ∧ (s.a = 0 → s.blend d = d) ∧
    (min s.r d.r ≤ (s.blend d).r ∧ (s.blend d).r ≤ max s.r d.r) ∧
    (min s.g d.g ≤ (s.blend d).g ∧ (s.blend d).g ≤ max s.g d.g) ∧
    (min s.b d.b ≤ (s.blend d).b ∧ (s.blend d).b ≤ max s.b d.b) := by
  have key : ∀ a x y : Rat, 0 ≤ a → a ≤ 1 → min x y ≤ x * a + y * (1 - a) ∧ x * a + y * (1 - a) ≤ max x y := by
    intro a x y h0 h1
    have h2 : 0 ≤ 1 - a := by linarith
    constructor
    · have e1 := mul_le_mul_of_nonneg_right (min_le_left x y) h0
      have e2 := mul_le_mul_of_nonneg_right (min_le_right x y) h2
      nlinarith
    · have e1 := mul_le_mul_of_nonneg_right (le_max_left x y) h0
      have e2 := mul_le_mul_of_nonneg_right (le_max_right x y) h2
      nlinarith
  refine ⟨?_, ?_, key _ _ _ h0 h1, key _ _ _ h0 h1, key _ _ _ h0 h1⟩
  · intro h
    obtain ⟨r, g, b, a⟩ := s
    simp only at h; subst h
    simp [RatColor.blend]
  · intro h
    obtain ⟨r, g, b, a⟩ := s
    simp only at h; subst h
    simp [RatColor.blend]

/-- Blending a partly transparent colour over an opaque one makes it transparent: alpha is multiplied
by itself. -/
theorem C76_opaque_violated (s d : RatColor) (h0 : 0 < s.a) (h1 : s.a < 1) (hd : d.a = 1) : (s.blend d).a < 1 := by
  simp only [RatColor.blend, hd]
  nlinarith

example : ((⟨1, 1, 1, 1 / 2⟩ : RatColor).blend ⟨0, 0, 0, 1⟩).a = 3 / 4 := by decide +kernel

/-- An opaque source, and only an opaque or transparent one, leaves an opaque destination opaque. -/
theorem C76_opaque_partial (s d : RatColor) (hd : d.a = 1) : (s.blend d).a = 1 ↔ s.a = 0 ∨ s.a = 1 := by
  simp only [RatColor.blend, hd]
  constructor
  · intro h
    have : s.a * (s.a - 1) = 0 := by linarith
    rcases mul_eq_zero.1 this with h | h
    · exact .inl h
    · exact .inr (by linarith)
  · rintro (h | h) <;> rw [h] <;> norm_num

end RichText
