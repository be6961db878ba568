import Verif.Model.Color
import Verif.Proof.Float
/-! Colours (C66). -/
namespace RichText

/-- C66: every byte survives the conversion to `float` and back. -/
theorem C66_byte : ∀ n < 256, (colorChannel n).bind channelByte = some n := by decide +kernel

theorem colorChannel_some (n : Nat) : ∃ c, colorChannel n = some c := ⟨_, rfl⟩

theorem fromRgb_some {r g b a : Nat} {c : Color F32} (h : fromRgb r g b a = some c) :
    colorChannel r = some c.r ∧ colorChannel g = some c.g ∧ colorChannel b = some c.b ∧ colorChannel a = some c.a := by
  unfold fromRgb at h
  split at h
  · rename_i h1 h2 h3 h4
    cases h
    exact ⟨h1, h2, h3, h4⟩
  · cases h

theorem byte_of {n : Nat} {c : F32} (hn : n < 256) (h : colorChannel n = some c) : channelByte c = some n := by
  have := C66_byte n hn
  rw [h] at this
  exact this

theorem packBytes_of {c : Color F32} {r g b a x y z w : Nat} (h1 : channelByte c.r = some r) (h2 : channelByte c.g = some g)
    (h3 : channelByte c.b = some b) (h4 : channelByte c.a = some a) : packBytes c x y z w = some (r * x ||| g * y ||| b * z ||| a * w) := by
  unfold packBytes
  rw [h1, h2, h3, h4]

theorem colorPixel_of {b g r a : Nat} {b' g' r' a' q1 q2 q3 : F32} (hb : colorChannel b = some b') (hg : colorChannel g = some g')
    (hr : colorChannel r = some r') (ha : colorChannel a = some a') (h1 : r'.div a' = some q1) (h2 : g'.div a' = some q2)
    (h3 : b'.div a' = some q3) : colorPixel b g r a = toArgb ⟨q1, q2, q3, a'⟩ := by
  rw [colorPixel, hb, Option.bind_some, hg, Option.bind_some, hr, Option.bind_some, ha, Option.bind_some, h1, Option.bind_some, h2,
    Option.bind_some, h3, Option.bind_some]

theorem packBytes_eq {r g b a : Nat} {c : Color F32} {x y z w : Nat} (h : fromRgb r g b a = some c) (hr : r < 256) (hg : g < 256)
    (hb : b < 256) (ha : a < 256) : packBytes c x y z w = some (r * x ||| g * y ||| b * z ||| a * w) := by
  obtain ⟨h1, h2, h3, h4⟩ := fromRgb_some h
  unfold packBytes
  rw [byte_of hr h1, byte_of hg h2, byte_of hb h3, byte_of ha h4]

/-- Four bytes at their places. -/
theorem or_bytes {a b c d : Nat} (ha : a < 256) (hb : b < 256) (hc : c < 256) :
    a ||| b * 256 ||| c * 65536 ||| d * 16777216 = a + 256 * b + 65536 * c + 16777216 * d := by
  have h1 : a ||| b * 256 = a + 256 * b := by
    rw [Nat.or_comm, Nat.mul_comm b, show (256 : Nat) = 2 ^ 8 from rfl, ← Nat.two_pow_add_eq_or_of_lt ha]; omega
  have h2 : (a + 256 * b) ||| c * 65536 = a + 256 * b + 65536 * c := by
    rw [Nat.or_comm, Nat.mul_comm c, show (65536 : Nat) = 2 ^ 16 from rfl, ← Nat.two_pow_add_eq_or_of_lt (by omega)]; omega
  have h3 : (a + 256 * b + 65536 * c) ||| d * 16777216 = a + 256 * b + 65536 * c + 16777216 * d := by
    rw [Nat.or_comm, Nat.mul_comm d, show (16777216 : Nat) = 2 ^ 24 from rfl, ← Nat.two_pow_add_eq_or_of_lt (by omega)]; omega
  rw [h1, h2, h3]

theorem fromRgb_total (r g b a : Nat) : ∃ c, fromRgb r g b a = some c := ⟨_, rfl⟩

/-- C66: words survive `from_argb_uint` and `to_argb`. -/
theorem C66_argb (n : Nat) (h : n < 2 ^ 32) : (fromArgb n).bind toArgb = some n := by
  obtain ⟨c, hc⟩ := fromRgb_total (n % 256) (n / 256 % 256) (n / 65536 % 256) (n / 16777216 % 256)
  unfold fromArgb
  rw [hc, Option.bind_some, toArgb, packBytes_eq hc (by omega) (by omega) (by omega) (by omega), Nat.mul_one,
    or_bytes (by omega) (by omega) (by omega)]
  congr 1
  omega

/-- C66: words survive `from_rgba_uint` and `to_rgba`. -/
theorem C66_rgba (n : Nat) (h : n < 2 ^ 32) : (fromRgba n).bind toRgba = some n := by
  obtain ⟨c, hc⟩ := fromRgb_total (n / 16777216 % 256) (n / 65536 % 256) (n / 256 % 256) (n % 256)
  unfold fromRgba
  rw [hc, Option.bind_some, toRgba, packBytes_eq hc (by omega) (by omega) (by omega) (by omega), Nat.mul_one]
  have := or_bytes (a := n % 256) (b := n / 256 % 256) (c := n / 65536 % 256) (d := n / 16777216 % 256) (by omega) (by omega) (by omega)
  rw [show n / 16777216 % 256 * 16777216 ||| n / 65536 % 256 * 65536 ||| n / 256 % 256 * 256 ||| n % 256 =
    n % 256 ||| n / 256 % 256 * 256 ||| n / 65536 % 256 * 65536 ||| n / 16777216 % 256 * 16777216 by
      rw [Nat.or_comm _ (n % 256), Nat.or_comm (_ ||| _) (n / 256 % 256 * 256), Nat.or_comm (n / 16777216 % 256 * 16777216), ← Nat.or_assoc,
        ← Nat.or_assoc], this]
  congr 1
  omega

/-- C66 (partial: without alpha): words survive `from_abgr_uint` and `to_abgr`. -/
theorem C66_abgr_partial (n : Nat) (h : n < 2 ^ 24) : (fromAbgr n).bind toAbgr = some n := by
  obtain ⟨c, hc⟩ := fromRgb_total (n / 65536) (n / 256 % 256) (n % 256) (n / 16777216 % 256)
  unfold fromAbgr
  rw [hc, Option.bind_some, toAbgr, packBytes_eq hc (by omega) (by omega) (by omega) (by omega), Nat.mul_one]
  have := or_bytes (a := n % 256) (b := n / 256 % 256) (c := n / 65536) (d := n / 16777216 % 256) (by omega) (by omega) (by omega)
  rw [show n / 65536 * 65536 ||| n / 256 % 256 * 256 ||| n % 256 ||| n / 16777216 % 256 * 16777216 =
    n % 256 ||| n / 256 % 256 * 256 ||| n / 65536 * 65536 ||| n / 16777216 % 256 * 16777216 by
      congr 1
      rw [Nat.or_comm _ (n % 256), Nat.or_comm (n / 65536 * 65536), ← Nat.or_assoc], this]
  congr 1
  omega

theorem ofNat_val {n : Nat} (h : n < 2 ^ 24) : (F32.ofNat n).val = n := by
  rw [ofNat_small h]
  simp [F32.val]

theorem channel_near {n : Nat} {c : F32} (h : n < 2 ^ 24) (hc : colorChannel n = some c) : Near c.val (n / 255) := by
  obtain ⟨q, h1, h2⟩ := div_near (a := F32.ofNat n) (b := f32Max) (by decide)
  unfold colorChannel at hc
  rw [hc] at h1
  cases h1
  rw [ofNat_val h, show f32Max.val = 255 by simp [F32.val, f32Max]] at h2
  exact h2

/-- C66 is violated by `from_abgr_uint` with alpha: alpha leaks into red, which
is above 1 for every word with alpha ... -/
theorem C66_abgr_violated (n : Nat) (h : 2 ^ 24 ≤ n) (h' : n < 2 ^ 32) : ∃ c, fromAbgr n = some c ∧ 1 < c.r.val := by
  obtain ⟨c, hc⟩ := fromRgb_total (n / 65536) (n / 256 % 256) (n % 256) (n / 16777216 % 256)
  obtain ⟨h1, -⟩ := fromRgb_some hc
  refine ⟨c, hc, ?_⟩
  have h2 := (channel_near (by omega) h1).1
  have h3 : (256 : ℚ) ≤ ((n / 65536 : Nat) : ℚ) := by exact_mod_cast (show 256 ≤ n / 65536 by omega)
  linarith

/-- ... and the red of some words does not survive. -/
theorem C66_abgr_lost_violated : (fromAbgr 0x03FF0000).bind toAbgr = some 0x03FE0000 := by decide +kernel

/-- C66: a colour of the markup, 24 bits, is stored so that its three bytes come
back, opaque. -/
theorem C66_markup (fl : Floats F32) (hch : ∀ n, some (fl.channel n) = colorChannel n) (hone : fl.one = f32One) (n : Nat) (h : n < 2 ^ 24) :
    toAbgr (fl.ofRgb n) = some (0xFF000000 + n) := by
  unfold toAbgr packBytes Floats.ofRgb
  simp only
  rw [byte_of (n := n / 65536) (by omega) (hch _).symm, byte_of (n := n / 256 % 256) (by omega) (hch _).symm,
    byte_of (n := n % 256) (by omega) (hch _).symm, hone, show channelByte f32One = some 255 by decide +kernel]
  simp only
  have := or_bytes (a := n % 256) (b := n / 256 % 256) (c := n / 65536) (d := 255) (by omega) (by omega) (by omega)
  rw [Nat.mul_one, show n / 65536 * 65536 ||| n / 256 % 256 * 256 ||| n % 256 ||| 255 * 16777216 =
    n % 256 ||| n / 256 % 256 * 256 ||| n / 65536 * 65536 ||| 255 * 16777216 by
      congr 1
      rw [Nat.or_comm _ (n % 256), Nat.or_comm (n / 65536 * 65536), ← Nat.or_assoc], this]
  congr 1
  omega

/-- C66: the pixel for a grey byte is white with that alpha. -/
theorem C66_grey (v : Nat) (h : v < 256) : greyPixel v = some (0xFFFFFF + 16777216 * v) := by
  unfold greyPixel
  obtain ⟨c, hc⟩ := colorChannel_some v
  rw [hc, Option.bind_some]
  unfold toArgb packBytes
  simp only
  rw [byte_of h hc, show channelByte f32One = some 255 by decide +kernel]
  simp only
  rw [Nat.mul_one, or_bytes (by omega) (by omega) (by omega)]

/-- A premultiplied byte divided by alpha. -/
theorem unpremultiply {a v : Nat} (ha : 0 < a) (ha' : a < 256) (hv : v ≤ a) {v' a' : F32} (h1 : colorChannel v = some v')
    (h2 : colorChannel a = some a') :
    ∃ q k, v'.div a' = some q ∧ channelByte q = some k ∧ k ≤ 255 * v / a ∧ 255 * v / a ≤ k + 1 ∧ k ≤ 255 := by
  obtain ⟨v1, v2⟩ := channel_near (by omega) h1
  obtain ⟨a1, a2⟩ := channel_near (by omega) h2
  have hA : (1 : ℚ) ≤ a := by exact_mod_cast ha
  have hA' : (a : ℚ) ≤ 255 := by exact_mod_cast (show a ≤ 255 by omega)
  have hV : (v : ℚ) ≤ a := by exact_mod_cast hv
  have hV0 : (0 : ℚ) ≤ v := by positivity
  have hpos : 0 < a'.val := by nlinarith
  have hm : a'.m ≠ 0 := by
    intro h0
    unfold F32.val at hpos
    rw [h0] at hpos
    simp at hpos
  obtain ⟨q, h3, q1, q2⟩ := div_near (a := v') hm
  obtain ⟨p1, p2⟩ := mul_near q f32Max
  rw [show f32Max.val = 255 by simp [F32.val, f32Max]] at p1 p2
  -- the exact quotient
  have hx0 : (0 : ℚ) ≤ v / a := by positivity
  have hx1 : (v : ℚ) / a ≤ 1 := by rw [div_le_one (by linarith)]; exact hV
  have hxa : (v : ℚ) / a * a = v := by field_simp
  generalize hx : (v : ℚ) / a = x at *
  have r1 : x * (1 - 3 / 2 ^ 23) ≤ v'.val / a'.val := by
    rw [le_div_iff₀ hpos]
    have e1 : x * (1 - 3 / 2 ^ 23) * a'.val ≤ x * (1 - 3 / 2 ^ 23) * (a / 255 * (1 + 1 / 2 ^ 23)) :=
      mul_le_mul_of_nonneg_left a2 (by nlinarith)
    have e2 : x * (1 - 3 / 2 ^ 23) * (a / 255 * (1 + 1 / 2 ^ 23)) = (v : ℚ) / 255 * ((1 - 3 / 2 ^ 23) * (1 + 1 / 2 ^ 23)) := by
      rw [← hxa]; ring
    have e3 : (v : ℚ) / 255 * ((1 - 3 / 2 ^ 23) * (1 + 1 / 2 ^ 23)) ≤ v / 255 * (1 - 1 / 2 ^ 23) :=
      mul_le_mul_of_nonneg_left (by norm_num) (by positivity)
    linarith
  have r2 : v'.val / a'.val ≤ x * (1 + 3 / 2 ^ 23) := by
    rw [div_le_iff₀ hpos]
    have e1 : x * (1 + 3 / 2 ^ 23) * (a / 255 * (1 - 1 / 2 ^ 23)) ≤ x * (1 + 3 / 2 ^ 23) * a'.val :=
      mul_le_mul_of_nonneg_left a1 (by positivity)
    have e2 : x * (1 + 3 / 2 ^ 23) * (a / 255 * (1 - 1 / 2 ^ 23)) = (v : ℚ) / 255 * ((1 + 3 / 2 ^ 23) * (1 - 1 / 2 ^ 23)) := by
      rw [← hxa]; ring
    have e3 : (v : ℚ) / 255 * (1 + 1 / 2 ^ 23) ≤ v / 255 * ((1 + 3 / 2 ^ 23) * (1 - 1 / 2 ^ 23)) :=
      mul_le_mul_of_nonneg_left (by norm_num) (by positivity)
    linarith
  have s1 : x * 255 - 1 / 1000 ≤ (q.mul f32Max).val := by nlinarith
  have s2 : (q.mul f32Max).val ≤ x * 255 + 1 / 1000 := by nlinarith
  have hlt : (q.mul f32Max).val < 2 ^ 32 := by linarith
  -- the integer part
  have hdm := Nat.div_add_mod (255 * v) a
  have hml := Nat.mod_lt (255 * v) ha
  generalize 255 * v / a = N at *
  generalize 255 * v % a = r at *
  have hN : x * 255 * a = a * N + r := by
    have : (a : ℚ) * N + r = 255 * v := by exact_mod_cast hdm
    rw [this, ← hxa]; ring
  have hr : (r : ℚ) + 1 ≤ a := by exact_mod_cast hml
  have hr0 : (0 : ℚ) ≤ r := by positivity
  have t1 : (N : ℚ) ≤ x * 255 := by
    by_contra hc
    nlinarith
  have t2 : x * 255 + 1 / 255 ≤ N + 1 := by
    by_contra hc
    nlinarith
  have f1 : ⌊(q.mul f32Max).val⌋₊ ≤ N := by
    have : ⌊(q.mul f32Max).val⌋₊ < N + 1 := by
      rw [Nat.floor_lt (F32.val_nonneg _)]
      push_cast
      linarith
    omega
  have f2 : N ≤ ⌊(q.mul f32Max).val⌋₊ + 1 := by
    have := Nat.lt_floor_add_one (q.mul f32Max).val
    have h5 : (N : ℚ) < (⌊(q.mul f32Max).val⌋₊ : ℚ) + 2 := by linarith
    have : N < ⌊(q.mul f32Max).val⌋₊ + 2 := by exact_mod_cast h5
    omega
  have f3 : N ≤ 255 := by
    have : (N : ℚ) ≤ 255 := by linarith
    exact_mod_cast this
  refine ⟨q, ⌊(q.mul f32Max).val⌋₊, h3, ?_, f1, f2, by omega⟩
  unfold channelByte
  rw [toUInt32_floor hlt, Option.map_some, Nat.mod_eq_of_lt (by omega)]

/-- C66 (partial: alpha is not 0): the pixel for four premultiplied bytes has the given
alpha, and its colour is the colour divided by alpha, rounded down or one less. -/
theorem C66_color_partial (b g r a : Nat) (ha : 0 < a) (ha' : a < 256) (hb : b ≤ a) (hg : g ≤ a) (hr : r ≤ a) :
    ∃ x y z, colorPixel b g r a = some (x + 256 * y + 65536 * z + 16777216 * a) ∧
      (x ≤ 255 * r / a ∧ 255 * r / a ≤ x + 1 ∧ x ≤ 255) ∧ (y ≤ 255 * g / a ∧ 255 * g / a ≤ y + 1 ∧ y ≤ 255) ∧
      (z ≤ 255 * b / a ∧ 255 * b / a ≤ z + 1 ∧ z ≤ 255) := by
  obtain ⟨b', hb'⟩ := colorChannel_some b
  obtain ⟨g', hg'⟩ := colorChannel_some g
  obtain ⟨r', hr'⟩ := colorChannel_some r
  obtain ⟨a', hal⟩ := colorChannel_some a
  obtain ⟨q1, x, d1, e1, f1⟩ := unpremultiply ha ha' hr hr' hal
  obtain ⟨q2, y, d2, e2, f2⟩ := unpremultiply ha ha' hg hg' hal
  obtain ⟨q3, z, d3, e3, f3⟩ := unpremultiply ha ha' hb hb' hal
  refine ⟨x, y, z, ?_, f1, f2, f3⟩
  rw [colorPixel_of hb' hg' hr' hal d1 d2 d3, toArgb, packBytes_of (c := ⟨q1, q2, q3, a'⟩) e1 e2 e3 (byte_of ha' hal), Nat.mul_one,
    or_bytes (by omega) (by omega) (by omega)]

/-- C66 is violated by transparent pixels: 0/0 is NaN, and converting it to an integer
is undefined. -/
theorem C66_transparent_violated (b g r : Nat) : colorPixel b g r 0 = none := by
  obtain ⟨b', hb'⟩ := colorChannel_some b
  obtain ⟨g', hg'⟩ := colorChannel_some g
  obtain ⟨r', hr'⟩ := colorChannel_some r
  rw [colorPixel, hb', Option.bind_some, hg', Option.bind_some, hr', Option.bind_some,
    show colorChannel 0 = some ⟨0, -34⟩ by decide +kernel, Option.bind_some, F32.div, if_pos rfl, Option.bind_none]

/-- A red of 64 under an alpha of 128: 127. -/
example : colorPixel 0 32 64 128 = some (127 + 256 * 63 + 16777216 * 128) := by decide +kernel

end RichText
