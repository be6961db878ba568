import Verif.Spec.FaceMetrics
import Verif.Proof.FontSize
import Verif.Proof.Rounding
import Verif.Proof.RoundedOffset
import Verif.Proof.Paragraph
/-!
Proofs about the metrics of faces.
-/
namespace RichText

/-! ### Fixed point -/

theorem ftMulFix_bound (a b : Int) : -32768 ≤ 65536 * ftMulFix a b - a * b ∧ 65536 * ftMulFix a b - a * b ≤ 32768 := by
  unfold ftMulFix
  split <;> omega

theorem ftDivFix_bound {a b : Int} (hb : 0 < b) : 2 * (ftDivFix a b * b - a * 65536) ≤ b ∧ -b ≤ 2 * (ftDivFix a b * b - a * 65536) := by
  have h1 := Int.ediv_mul_le (a * 65536 + b / 2) (Int.ne_of_gt hb)
  have h2 := Int.lt_ediv_add_one_mul_self (a * 65536 + b / 2) hb
  rw [Int.add_mul] at h2
  unfold ftDivFix
  generalize (a * 65536 + b / 2) / b * b = q at *
  omega

/-- A scaled number of font units: exact, rounded to 26.6 fixed point. -/
theorem scaled_bound {e h y u : Int} (hh : 0 < h) (hy : y = ftDivFix (e * 64) h) (hu : -32768 ≤ u ∧ u ≤ 32768) :
    4 * (h * ftMulFix u y - 64 * (e * u)) ≤ 3 * h ∧ -(3 * h) ≤ 4 * (h * ftMulFix u y - 64 * (e * u)) := by
  obtain ⟨a1, a2⟩ := ftMulFix_bound u y
  obtain ⟨b1, b2⟩ := ftDivFix_bound (a := e * 64) hh
  rw [← hy] at b1 b2
  generalize ftMulFix u y = A at *
  have c1 : h * (65536 * A - u * y) ≤ h * 32768 := mul_le_mul_of_nonneg_left a2 hh.le
  have c2 : h * (-32768) ≤ h * (65536 * A - u * y) := mul_le_mul_of_nonneg_left a1 hh.le
  have d : |u * (2 * (y * h - e * 64 * 65536))| ≤ 32768 * h := by
    rw [abs_mul]
    exact mul_le_mul (abs_le.2 hu) (abs_le.2 ⟨b2, b1⟩) (abs_nonneg _) (by norm_num)
  obtain ⟨d1, d2⟩ := abs_le.1 d
  have e1 : 65536 * (h * A - 64 * (e * u)) = h * (65536 * A - u * y) + u * (y * h - e * 64 * 65536) := by ring
  have e2 : u * (2 * (y * h - e * 64 * 65536)) = 2 * (u * (y * h - e * 64 * 65536)) := by ring
  rw [e2] at d1 d2
  generalize u * (y * h - e * 64 * 65536) = U at *
  generalize h * (65536 * A - u * y) = V at *
  generalize h * A - 64 * (e * u) = W at *
  constructor <;> linarith

theorem pixCeil_bound (a : Int) : a ≤ 64 * pixCeil a ∧ 64 * pixCeil a ≤ a + 63 := by unfold pixCeil; omega
theorem pixFloor_bound (a : Int) : 64 * pixFloor a ≤ a ∧ a ≤ 64 * pixFloor a + 63 := by unfold pixFloor; omega

/-- What a request for a size gives. -/
structure FaceUnits.Sized (f : FaceUnits) (e : Int) (m : SizeMetrics) (a d A D : Int) : Prop where
  scale : m.yScale = ftDivFix (e * 64) f.extent
  ascender : m.ascender = a * 64
  descender : m.descender = d * 64
  ceil : A ≤ 64 * a ∧ 64 * a ≤ A + 63
  floor : 64 * d ≤ D ∧ D ≤ 64 * d + 63
  up : 4 * (f.extent * A - 64 * (e * f.ascender)) ≤ 3 * f.extent ∧ -(3 * f.extent) ≤ 4 * (f.extent * A - 64 * (e * f.ascender))
  down : 4 * (f.extent * D - 64 * (e * f.descender)) ≤ 3 * f.extent ∧ -(3 * f.extent) ≤ 4 * (f.extent * D - 64 * (e * f.descender))
  sum : 64 * e - 1 ≤ A - D ∧ A - D ≤ 64 * e + 1
  ppem : m.ppem = (ftMulFix f.upem m.yScale + 32) / 64 ∧ m.ppem ≤ 65535

theorem FaceUnits.Usual.sized {f : FaceUnits} (hf : f.Usual) {e : Int} {m : SizeMetrics} (h : f.request (e * 64) = some m) :
    ∃ a d A D, f.Sized e m a d A D := by
  have hp := hf.height
  have hx : ((f.ascender - f.descender).natAbs : Int) = f.extent := by unfold FaceUnits.extent; omega
  have hpos : 0 < f.extent := hp
  unfold FaceUnits.request at h
  simp only [hx] at h
  rw [if_neg (by omega)] at h
  split at h
  · cases h
  rename_i hpp
  simp only [Option.some.injEq] at h
  obtain ⟨b1, b2⟩ := ftDivFix_bound (a := e * 64) hpos
  generalize hy : ftDivFix (e * 64) f.extent = y at *
  have u := scaled_bound (u := f.ascender) hpos hy.symm ⟨by have := hf.ascender; omega, by have := hf.ascender; omega⟩
  have v := scaled_bound (u := f.descender) hpos hy.symm ⟨by have := hf.descender; omega, by have := hf.descender; omega⟩
  refine ⟨pixCeil (ftMulFix f.ascender y), pixFloor (ftMulFix f.descender y), ftMulFix f.ascender y, ftMulFix f.descender y,
    ?_⟩
  subst h
  refine ⟨hy.symm, rfl, rfl, pixCeil_bound _, pixFloor_bound _, u, v, ?_, rfl, Int.not_lt.1 hpp⟩
  obtain ⟨p1, p2⟩ := ftMulFix_bound f.ascender y
  obtain ⟨q1, q2⟩ := ftMulFix_bound f.descender y
  have hs : f.ascender * y - f.descender * y = y * f.extent := by unfold FaceUnits.extent; ring
  have hle : f.extent ≤ 65535 := by have := hf.ascender; have := hf.descender; unfold FaceUnits.extent; omega
  generalize ftMulFix f.ascender y = A at *
  generalize ftMulFix f.descender y = D at *
  generalize f.ascender * y = P at *
  generalize f.descender * y = Q at *
  generalize y * f.extent = R at *
  omega

namespace FaceUnits.Sized
variable {f : FaceUnits} {e a d A D : Int} {m : SizeMetrics}

theorem height (h : f.Sized e m a d A D) : e ≤ a - d ∧ a - d ≤ e + 1 := by
  obtain ⟨h1, h2⟩ := h.ceil
  obtain ⟨h3, h4⟩ := h.floor
  obtain ⟨h5, h6⟩ := h.sum
  omega

theorem asc_le (hf : f.Usual) (he : 0 ≤ e) (h : f.Sized e m a d A D) : a ≤ e := by
  have hp : 0 < f.extent := hf.height
  obtain ⟨u1, _⟩ := h.up
  have hle : e * f.ascender ≤ e * f.extent := mul_le_mul_of_nonneg_left (by unfold FaceUnits.extent; have := hf.descender; omega) he
  obtain ⟨h1, h2⟩ := h.ceil
  by_contra hc
  have : 64 * e + 1 ≤ A := by omega
  have := mul_le_mul_of_nonneg_left this hp.le
  nlinarith

theorem asc_nonneg (hf : f.Usual) (he : 0 ≤ e) (h : f.Sized e m a d A D) : 0 ≤ a := by
  have hp : 0 < f.extent := hf.height
  obtain ⟨_, u2⟩ := h.up
  have hle : 0 ≤ e * f.ascender := mul_nonneg he hf.ascender.1
  obtain ⟨h1, h2⟩ := h.ceil
  by_contra hc
  have : A ≤ -1 := by omega
  have := mul_le_mul_of_nonneg_left this hp.le
  nlinarith

theorem desc_nonpos (hf : f.Usual) (he : 0 ≤ e) (h : f.Sized e m a d A D) : d ≤ 0 := by
  have hp : 0 < f.extent := hf.height
  obtain ⟨u1, _⟩ := h.down
  have hle : e * f.descender ≤ 0 := mul_nonpos_of_nonneg_of_nonpos he hf.descender.2
  obtain ⟨h1, h2⟩ := h.floor
  by_contra hc
  have : 1 ≤ D := by omega
  have := mul_le_mul_of_nonneg_left this hp.le
  nlinarith

theorem le_desc (hf : f.Usual) (he : 0 ≤ e) (h : f.Sized e m a d A D) : -e ≤ d := by
  have hp : 0 < f.extent := hf.height
  obtain ⟨_, u2⟩ := h.down
  have hle : e * -f.descender ≤ e * f.extent := mul_le_mul_of_nonneg_left (by unfold FaceUnits.extent; have := hf.ascender; omega) he
  obtain ⟨h1, h2⟩ := h.floor
  by_contra hc
  have : D ≤ -(64 * e) - 1 := by omega
  have := mul_le_mul_of_nonneg_left this hp.le
  nlinarith

/-- The ascender is at most a pixel above the exact one. -/
theorem asc_bound (hf : f.Usual) (h : f.Sized e m a d A D) :
    -(3 * f.extent) ≤ 256 * (f.extent * a - e * f.ascender) ∧ 256 * (f.extent * a - e * f.ascender) ≤ 255 * f.extent := by
  have hp : 0 < f.extent := hf.height
  obtain ⟨u1, u2⟩ := h.up
  obtain ⟨h1, h2⟩ := h.ceil
  have := mul_le_mul_of_nonneg_left h1 hp.le
  have := mul_le_mul_of_nonneg_left h2 hp.le
  constructor <;> linarith

theorem desc_bound (hf : f.Usual) (h : f.Sized e m a d A D) :
    -(255 * f.extent) ≤ 256 * (f.extent * d - e * f.descender) ∧ 256 * (f.extent * d - e * f.descender) ≤ 3 * f.extent := by
  have hp : 0 < f.extent := hf.height
  obtain ⟨u1, u2⟩ := h.down
  obtain ⟨h1, h2⟩ := h.floor
  have := mul_le_mul_of_nonneg_left h1 hp.le
  have := mul_le_mul_of_nonneg_left h2 hp.le
  constructor <;> linarith

/-- Exact height: the ascender at a whole number of pixels. -/
theorem height_exact (hf : f.Usual) (h : f.Sized e m a d A D) {n : Int} (hn : e * f.ascender = n * f.extent) : a - d = e := by
  have hp : 0 < f.extent := hf.height
  have hd : e * f.descender = (n - e) * f.extent := by
    have : f.descender = f.ascender - f.extent := by unfold FaceUnits.extent; omega
    rw [this, mul_sub, hn]; ring
  have key : ∀ X k : Int, 4 * (f.extent * X - 64 * (k * f.extent)) ≤ 3 * f.extent → -(3 * f.extent) ≤ 4 * (f.extent * X - 64 * (k * f.extent)) →
      X = 64 * k := by
    intro X k l1 l2
    by_contra hc
    rcases Int.lt_or_gt_of_ne hc with hc | hc
    · have := mul_le_mul_of_nonneg_left (show X ≤ 64 * k - 1 by omega) hp.le
      nlinarith
    · have := mul_le_mul_of_nonneg_left (show 64 * k + 1 ≤ X by omega) hp.le
      nlinarith
  have hA := key A n (by rw [← hn]; exact h.up.1) (by rw [← hn]; exact h.up.2)
  have hD := key D (n - e) (by rw [← hd]; exact h.down.1) (by rw [← hd]; exact h.down.2)
  obtain ⟨h1, h2⟩ := h.ceil
  obtain ⟨h3, h4⟩ := h.floor
  omega

/-- The height is the size only if the exact ascender is close to a whole number
of pixels. -/
theorem height_near (hf : f.Usual) (h : f.Sized e m a d A D) (he : a - d = e) :
    ∃ n : Int, 256 * |e * f.ascender - n * f.extent| ≤ 7 * f.extent := by
  have hp : 0 < f.extent := hf.height
  obtain ⟨h1, h2⟩ := h.ceil
  obtain ⟨h3, h4⟩ := h.floor
  obtain ⟨h5, h6⟩ := h.sum
  obtain ⟨u1, u2⟩ := h.up
  refine ⟨a, ?_⟩
  have k1 : 64 * a - 1 ≤ A := by omega
  have := mul_le_mul_of_nonneg_left k1 hp.le
  have := mul_le_mul_of_nonneg_left h1 hp.le
  rcases abs_cases (e * f.ascender - a * f.extent) with ⟨b, _⟩ | ⟨b, _⟩ <;> rw [b] <;> linarith

end FaceUnits.Sized

/-! ### Floats -/

theorem f32Round_int {n : Int} (h : |n| ≤ 16777216) : f32Round (n : Rat) = n :=
  f32Round_float ⟨n, 0, by simpa using h, by norm_num, by simp⟩

theorem f32Round_px {n : Int} (h : |n| ≤ 16777216) : f32Round (f32Round ((n * 64 : Int) : Rat) / 64) = n := by
  have h1 : f32Round ((n * 64 : Int) : Rat) = n * 64 := by
    have : IsFloat ((n * 64 : Int) : Rat) := ⟨n, 6, by simpa using h, by norm_num, by push_cast; norm_num⟩
    rw [f32Round_float this]; push_cast; rfl
  rw [h1, mul_div_assoc, div_self (by norm_num), mul_one, f32Round_int h]

theorem scale_plain : (fontScale false false).value = 1 := by rw [scale_ff]; norm_num [F32.value]
theorem scale_raised : (fontScale false true).value = 11744051 / 16777216 := by rw [scale_ft]; norm_num [F32.value]

/-- The error of rounding, for bounded numbers. -/
theorem f32Round_near (x : Rat) (k : Int) (hk : -149 ≤ k) (h : |x| < (2 : Rat) ^ (k + 24)) : |f32Round x - x| ≤ (2 : Rat) ^ k / 2 := by
  by_cases h0 : x = 0
  · subst h0; simp only [f32Round, if_true, sub_self, abs_zero]; positivity
  · have := f32Round_error x
    have := ulp_le h0 k hk h
    linarith

namespace SizedFont
variable {f : SizedFont} {m : SizeMetrics} {e a d A D : Int}

theorem ascent_plain (h : f.face.Sized e m a d A D) (hs : f.subSuper = false) (ha : |a| ≤ 16777216) : f.getAscent m = a := by
  unfold getAscent
  rw [hs, scale_plain, h.ascender, f32Round_px ha, div_one, f32Round_int ha]

theorem descent_plain (h : f.face.Sized e m a d A D) (hs : f.subSuper = false) (ha : |d| ≤ 16777216) : f.getDescent m = d := by
  unfold getDescent
  rw [hs, scale_plain, h.descender, f32Round_px ha, div_one, f32Round_int ha]

theorem raised_error {n : Int} (hn : |n| ≤ 65536) :
    |f32Round ((n : Rat) / (11744051 / 16777216)) - (n : Rat) * (16777216 / 11744051)| ≤ 1 / 256 := by
  have e1 : (n : Rat) / (11744051 / 16777216) = n * (16777216 / 11744051) := by rw [div_eq_mul_inv]; norm_num
  have hn' : |(n : Rat)| ≤ 65536 := by exact_mod_cast hn
  rw [e1]
  refine (f32Round_near _ (-7) (by norm_num) ?_).trans (by norm_num)
  rw [abs_mul, abs_of_nonneg (by norm_num : (0 : Rat) ≤ 16777216 / 11744051)]
  norm_num
  linarith

theorem ascent_raised (h : f.face.Sized e m a d A D) (hs : f.subSuper = true) (ha : |a| ≤ 65536) :
    |f.getAscent m - a * (16777216 / 11744051)| ≤ 1 / 256 := by
  unfold getAscent
  rw [hs, scale_raised, h.ascender, f32Round_px (by omega)]
  exact raised_error ha

theorem descent_raised (h : f.face.Sized e m a d A D) (hs : f.subSuper = true) (hd : |d| ≤ 65536) :
    |f.getDescent m - d * (16777216 / 11744051)| ≤ 1 / 256 := by
  unfold getDescent
  rw [hs, scale_raised, h.descender, f32Round_px (by omega)]
  exact raised_error hd

theorem isFloat_superscript : IsFloat (-superscriptRatio) := ⟨-11408507, -25, by norm_num, by norm_num, by norm_num [superscriptRatio]⟩
theorem isFloat_subscript : IsFloat subscriptRatio := ⟨13421773, -26, by norm_num, by norm_num, by norm_num [subscriptRatio]⟩

theorem offset_superscript (h1 : f.superscript = true) (h2 : f.subscript = false) (hs : f.size < 65536) :
    |f.baselineOffset + superscriptRatio * f.size| ≤ 1 / 1024 := by
  have hs' : (f.size : Rat) < 65536 := by exact_mod_cast hs
  have hz : (0 : Rat) ≤ f.size := Nat.cast_nonneg _
  unfold baselineOffset
  rw [h1, h2]
  simp only [Bool.toNat_false, Bool.toNat_true, Nat.cast_zero, Nat.cast_one, zero_mul, one_mul, f32Round_zero, zero_add,
    f32Round_float isFloat_superscript]
  rw [f32Round_nat (n := f.size) (by omega), show superscriptRatio * (f.size : Rat) = -(-superscriptRatio * f.size) by ring, ← sub_eq_add_neg]
  refine (f32Round_near _ (-9) (by norm_num) ?_).trans (by norm_num)
  rw [abs_mul, abs_neg, abs_of_nonneg hz, abs_of_nonneg (by norm_num [superscriptRatio])]
  norm_num [superscriptRatio]
  linarith

theorem offset_subscript (h1 : f.superscript = false) (h2 : f.subscript = true) (hs : f.size < 65536) :
    |f.baselineOffset - subscriptRatio * f.size| ≤ 1 / 1024 := by
  have hs' : (f.size : Rat) < 65536 := by exact_mod_cast hs
  have hz : (0 : Rat) ≤ f.size := Nat.cast_nonneg _
  unfold baselineOffset
  rw [h1, h2]
  simp only [Bool.toNat_false, Bool.toNat_true, Nat.cast_zero, Nat.cast_one, zero_mul, one_mul, f32Round_zero, add_zero,
    f32Round_float isFloat_subscript]
  rw [f32Round_nat (n := f.size) (by omega)]
  refine (f32Round_near _ (-9) (by norm_num) ?_).trans (by norm_num)
  rw [abs_mul, abs_of_nonneg hz, abs_of_nonneg (by norm_num [subscriptRatio])]
  norm_num [subscriptRatio]
  linarith

theorem offset_plain (h1 : f.superscript = false) (h2 : f.subscript = false) : f.baselineOffset = 0 := by
  unfold baselineOffset
  rw [h1, h2]
  simp [f32Round_zero]

/-- The size set on the face. -/
theorem sized (hf : f.face.Usual) (hs : f.size < 65536) (hm : f.metrics = some m) :
    ∃ (e : Nat) (a d A D : Int), effectiveSize f.size f.smallCaps f.subSuper = some e ∧ e ≤ f.size ∧
      f.face.Sized e m a d A D ∧ (0 ≤ a ∧ a ≤ e) ∧ (-(e : Int) ≤ d ∧ d ≤ 0) := by
  unfold metrics at hm
  cases he : effectiveSize f.size f.smallCaps f.subSuper with
  | none => rw [he] at hm; cases hm
  | some e =>
    rw [he] at hm
    obtain ⟨a, d, A, D, h⟩ := hf.sized hm
    refine ⟨e, a, d, A, D, rfl, ?_, h, ⟨h.asc_nonneg hf (by omega), h.asc_le hf (by omega)⟩, h.le_desc hf (by omega),
      h.desc_nonpos hf (by omega)⟩
    cases hc : f.smallCaps <;> cases hr : f.subSuper <;> rw [hc, hr] at he
    · rw [effective_plain (by omega)] at he; cases he; omega
    · rw [effective_subSuper (by omega)] at he; cases he; omega
    · rw [effective_smallCaps (by omega)] at he; cases he; omega
    · rw [effective_both (by omega)] at he; cases he; omega

theorem lineMetrics_sign (hf : f.face.Usual) (hs : f.size < 65536) (hm : f.metrics = some m) :
    0 ≤ f.getAscent m ∧ f.getDescent m ≤ 0 := by
  obtain ⟨e, a, d, A, D, he, hle, h, ⟨ha1, ha2⟩, hd1, hd2⟩ := sized hf hs hm
  have ha : |a| ≤ 16777216 := abs_le.2 ⟨by omega, by omega⟩
  have hd : |d| ≤ 16777216 := abs_le.2 ⟨by omega, by omega⟩
  have ha' : (0 : Rat) ≤ a := by exact_mod_cast ha1
  have hd' : (d : Rat) ≤ 0 := by exact_mod_cast hd2
  have hc : 0 < (fontScale false f.subSuper).value := by
    cases f.subSuper
    · rw [scale_plain]; norm_num
    · rw [scale_raised]; norm_num
  unfold getAscent getDescent
  rw [h.ascender, h.descender, f32Round_px ha, f32Round_px hd]
  constructor
  · exact f32Round_nonneg (div_nonneg ha' hc.le)
  · have := f32Round_mono (div_nonpos_of_nonpos_of_nonneg hd' hc.le)
    rwa [f32Round_zero] at this

/-- The error of rounding relative to the number, away from underflow. -/
theorem f32Round_relative (x : Rat) (h : x = 0 ∨ (2 : Rat) ^ (-126 : Int) ≤ |x|) : |f32Round x - x| ≤ |x| / 2 ^ 24 := by
  rcases h with rfl | h
  · simp only [f32Round, if_true, sub_self, abs_zero, zero_div]; exact le_refl _
  · have hp : 0 < |x| := lt_of_lt_of_le (by positivity) h
    have h1 := (binExp_spec hp)
    have hb : -126 ≤ binExp |x| := by
      have := h.trans_lt h1.2
      have := (zpow_lt_zpow_iff_right₀ (by norm_num : (1 : Rat) < 2)).1 this
      omega
    have hu : ulp x = (2 : Rat) ^ binExp |x| / 2 ^ 23 := by
      unfold ulp
      rw [absIf, max_eq_left (by omega), zpow_sub₀ (by norm_num)]
      norm_num
    have := f32Round_error x
    rw [hu] at this
    have h2 := div_le_div_of_nonneg_right h1.1 (by norm_num : (0 : Rat) ≤ 2 ^ 24)
    refine this.trans (le_trans (le_of_eq ?_) h2)
    rw [div_div]; norm_num

/-- Pixels per em, against the exact number. -/
theorem ppem_bound {f : FaceUnits} (hf : f.Usual) (h : f.Sized e m a d A D) :
    -(33 * f.extent) ≤ 64 * (m.ppem * f.extent - e * f.upem) ∧ 64 * (m.ppem * f.extent - e * f.upem) ≤ 33 * f.extent := by
  have hp : 0 < f.extent := hf.height
  obtain ⟨p, _⟩ := h.ppem
  have hy := h.scale
  obtain ⟨a1, a2⟩ := ftMulFix_bound f.upem m.yScale
  obtain ⟨b1, b2⟩ := ftDivFix_bound (a := e * 64) hp
  rw [← hy] at b1 b2
  generalize ftMulFix f.upem m.yScale = X at *
  generalize m.yScale = y at *
  have c1 : f.extent * (65536 * X - f.upem * y) ≤ f.extent * 32768 := mul_le_mul_of_nonneg_left a2 hp.le
  have c2 : f.extent * (-32768) ≤ f.extent * (65536 * X - f.upem * y) := mul_le_mul_of_nonneg_left a1 hp.le
  have d : |f.upem * (2 * (y * f.extent - e * 64 * 65536))| ≤ 65536 * f.extent := by
    rw [abs_mul]
    exact mul_le_mul (abs_le.2 ⟨by have := hf.upem; omega, by have := hf.upem; omega⟩) (abs_le.2 ⟨b2, b1⟩) (abs_nonneg _) (by norm_num)
  obtain ⟨d1, d2⟩ := abs_le.1 d
  have e1 : 65536 * (f.extent * X - 64 * (e * f.upem)) = f.extent * (65536 * X - f.upem * y) + f.upem * (y * f.extent - e * 64 * 65536) := by ring
  have e2 : f.upem * (2 * (y * f.extent - e * 64 * 65536)) = 2 * (f.upem * (y * f.extent - e * 64 * 65536)) := by ring
  rw [e2] at d1 d2
  have g1 : 64 * m.ppem ≤ X + 32 := by omega
  have g2 : X - 32 ≤ 64 * m.ppem := by omega
  have g1 := mul_le_mul_of_nonneg_left g1 hp.le
  have g2 := mul_le_mul_of_nonneg_left g2 hp.le
  constructor <;> linarith

theorem ppem_nonneg {f : FaceUnits} (hf : f.Usual) (he : 0 ≤ e) (h : f.Sized e m a d A D) : 0 ≤ m.ppem := by
  have hp : 0 < f.extent := hf.height
  have h1 := (ppem_bound hf h).1
  have h2 : 0 ≤ e * f.upem := mul_nonneg he hf.upem.1.le
  by_contra hc
  have := mul_le_mul_of_nonneg_right (show m.ppem ≤ -1 by omega) hp.le
  linarith

/-- Numbers of font units times the scale. -/
theorem decoration_bound (hf : f.face.Usual) {e : Nat} (h : f.face.Sized e m a d A D) {u : Int} (hu : |u| ≤ f.face.upem) :
    |f32Round (f.getScaleY m * f32Round (u : Rat)) - (e * u : Rat) / f.face.extent| ≤ 17 / 32 := by
  have hp : 0 < f.face.extent := hf.height
  have hpr : (0 : Rat) < f.face.extent := by exact_mod_cast hp
  have h0 := ppem_nonneg hf (by omega) h
  have h1 := h.ppem.2
  obtain ⟨u0, u1⟩ := hf.upem
  obtain ⟨p1, p2⟩ := ppem_bound hf h
  have hU : (0 : Rat) < f.face.upem := by exact_mod_cast u0
  unfold getScaleY
  rw [f32Round_int (n := u) (by omega), f32Round_int (n := m.ppem) (abs_le.2 ⟨by omega, by omega⟩),
    f32Round_int (n := f.face.upem) (abs_le.2 ⟨by omega, by omega⟩)]
  have r : |f32Round ((m.ppem : Rat) / f.face.upem) - (m.ppem : Rat) / f.face.upem| ≤ ((m.ppem : Rat) / f.face.upem) / 2 ^ 24 := by
    have hn : (0 : Rat) ≤ (m.ppem : Rat) / f.face.upem := div_nonneg (by exact_mod_cast h0) hU.le
    have := f32Round_relative ((m.ppem : Rat) / f.face.upem) ?_
    · rwa [abs_of_nonneg hn] at this
    · rcases h0.eq_or_lt with h0 | h0
      · left; rw [← h0]; simp
      · right
        rw [abs_of_nonneg hn]
        have a1 : (1 : Rat) ≤ m.ppem := by exact_mod_cast h0
        have a2 : (f.face.upem : Rat) ≤ 65536 := by exact_mod_cast (show f.face.upem ≤ 65536 by omega)
        have a3 : (1 : Rat) / 65536 ≤ (m.ppem : Rat) / f.face.upem := by
          rw [div_le_div_iff₀ (by norm_num) hU]; linarith
        refine le_trans ?_ a3
        rw [show (1 : Rat) / 65536 = (2 : Rat) ^ (-16 : Int) by norm_num]
        exact zpow_le_zpow_right₀ (by norm_num) (by norm_num)
  generalize f32Round ((m.ppem : Rat) / f.face.upem) = S at *
  have hu' : |(u : Rat)| ≤ f.face.upem := by exact_mod_cast hu
  have hP : (m.ppem : Rat) ≤ 65535 := by exact_mod_cast h1
  -- the product, before the last rounding
  have s1 : |S * u - (m.ppem : Rat) / f.face.upem * u| ≤ 1 / 256 := by
    rw [← sub_mul, abs_mul]
    refine (mul_le_mul r hu' (abs_nonneg _) (div_nonneg (div_nonneg (by exact_mod_cast h0) hU.le) (by norm_num))).trans ?_
    have : (m.ppem : Rat) / f.face.upem / 2 ^ 24 * f.face.upem = m.ppem / 2 ^ 24 := by field_simp
    rw [this, div_le_iff₀ (by norm_num)]
    linarith
  have s2 : |(m.ppem : Rat) / f.face.upem * u - (e * u : Rat) / f.face.extent| ≤ 33 / 64 := by
    have e1 : (m.ppem : Rat) / f.face.upem * u - (e * u : Rat) / f.face.extent
        = (m.ppem * f.face.extent - e * f.face.upem) / f.face.extent * (u / f.face.upem) := by field_simp
    have t1 : |((m.ppem * f.face.extent - e * f.face.upem) / f.face.extent : Rat)| ≤ 33 / 64 := by
      rw [abs_div, abs_of_pos hpr, div_le_iff₀ hpr, abs_le]
      have p1' : -(33 * (f.face.extent : Rat)) ≤ 64 * (m.ppem * f.face.extent - e * f.face.upem) := by exact_mod_cast p1
      have p2' : 64 * ((m.ppem : Rat) * f.face.extent - e * f.face.upem) ≤ 33 * (f.face.extent : Rat) := by exact_mod_cast p2
      constructor <;> linarith
    have t2 : |(u / f.face.upem : Rat)| ≤ 1 := by
      rw [abs_div, abs_of_pos hU, div_le_one hU]; exact hu'
    rw [e1, abs_mul]
    calc _ ≤ (33 / 64 : Rat) * 1 := mul_le_mul t1 t2 (abs_nonneg _) (by norm_num)
      _ = _ := by norm_num
  have s3 : |(m.ppem : Rat) / f.face.upem * u| ≤ 65535 := by
    rw [abs_mul, abs_of_nonneg (div_nonneg (by exact_mod_cast h0) hU.le)]
    refine (mul_le_mul_of_nonneg_left hu' (div_nonneg (by exact_mod_cast h0) hU.le)).trans ?_
    rw [div_mul_cancel₀ _ hU.ne']
    exact hP
  have s4 : |S * u| < (2 : Rat) ^ ((-8 : Int) + 24) := by
    have := abs_le.1 s1
    have := abs_le.1 s3
    refine lt_of_lt_of_eq (b := 65536) ?_ (by norm_num)
    rw [abs_lt]
    constructor <;> linarith
  have s5 := abs_le.1 (f32Round_near _ (-8) (by norm_num) s4)
  have s1 := abs_le.1 s1
  have s2 := abs_le.1 s2
  norm_num at s5
  rw [abs_le]
  constructor <;> linarith [s1.1, s1.2, s2.1, s2.2, s5.1, s5.2]

end SizedFont

end RichText
