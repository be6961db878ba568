import Verif.Model.Rounding
import Mathlib.Tactic.Linarith
import Mathlib.Tactic.Positivity
import Mathlib.Tactic.FieldSimp
import Mathlib.Tactic.Ring
import Mathlib.Tactic.NormNum
import Mathlib.Data.Rat.Floor
import Mathlib.Algebra.Order.Floor.Semifield
import Mathlib.Algebra.Order.Field.Power
/-! Binary32 rounding yields the nearest float, is monotone, and leaves floats
alone. -/
namespace RichText

/-- The finite binary32 numbers, without an upper bound on the exponent. -/
def IsFloat (x : Rat) : Prop := ∃ (n k : Int), |n| ≤ 2 ^ 24 ∧ -149 ≤ k ∧ x = n * (2 : Rat) ^ k

theorem roundEven_near (x : Rat) : |(roundEven x : Rat) - x| ≤ 1 / 2 := by
  have h1 : ((x.floor : Int) : Rat) ≤ x := Int.floor_le x
  have h2 : x < (x.floor : Int) + 1 := Int.lt_floor_add_one x
  unfold roundEven
  rw [abs_le]
  split
  · constructor <;> linarith
  · split
    · push_cast; constructor <;> linarith
    · split
      · constructor <;> linarith
      · push_cast; constructor <;> linarith

/-- `roundEven` gives a nearest integer. -/
theorem roundEven_nearest (x : Rat) (n : Int) : |(roundEven x : Rat) - x| ≤ |(n : Rat) - x| := by
  by_cases h : n = roundEven x
  · rw [h]
  · have h1 := roundEven_near x
    have h2 : (1 : Rat) ≤ |(n : Rat) - roundEven x| := by
      have : (1 : Int) ≤ |n - roundEven x| := Int.one_le_abs (sub_ne_zero.2 h)
      calc (1 : Rat) = ((1 : Int) : Rat) := by norm_num
        _ ≤ ((|n - roundEven x| : Int) : Rat) := by exact_mod_cast this
        _ = |(n : Rat) - roundEven x| := by push_cast; rfl
    have h3 : |(n : Rat) - roundEven x| ≤ |(n : Rat) - x| + |(roundEven x : Rat) - x| := by
      have := abs_sub_le (n : Rat) x (roundEven x)
      rwa [abs_sub_comm x] at this
    linarith

theorem roundEven_int (n : Int) : roundEven (n : Rat) = n := by
  have h := roundEven_nearest (n : Rat) n
  simp only [sub_self, abs_zero] at h
  have : (roundEven (n : Rat) : Rat) = n := sub_eq_zero.1 (abs_eq_zero.1 (le_antisymm h (abs_nonneg _)))
  exact_mod_cast this

theorem binExp_spec {x : Rat} (hx : 0 < x) : (2 : Rat) ^ binExp x ≤ x ∧ x < (2 : Rat) ^ (binExp x + 1) := by
  have hn : 0 < x.num := Rat.num_pos.2 hx
  have hna : x.num.natAbs ≠ 0 := by omega
  have hd : x.den ≠ 0 := x.den_nz
  have e : x = (x.num.natAbs : Rat) / x.den := by
    conv_lhs => rw [← Rat.num_div_den x]
    have : ((x.num.natAbs : Int) : Rat) = (x.num : Rat) := by
      rw [Int.natAbs_of_nonneg hn.le]
    rw [← this]; simp
  have a1 : ((2 : Rat) ^ Nat.log2 x.num.natAbs) ≤ x.num.natAbs := by
    exact_mod_cast Nat.log2_self_le hna
  have a2 : (x.num.natAbs : Rat) < (2 : Rat) ^ (Nat.log2 x.num.natAbs + 1) := by
    exact_mod_cast Nat.lt_log2_self
  have b1 : ((2 : Rat) ^ Nat.log2 x.den) ≤ x.den := by
    exact_mod_cast Nat.log2_self_le hd
  have b2 : (x.den : Rat) < (2 : Rat) ^ (Nat.log2 x.den + 1) := by
    exact_mod_cast Nat.lt_log2_self
  set p := Nat.log2 x.num.natAbs
  set q := Nat.log2 x.den
  have hdpos : (0 : Rat) < x.den := by exact_mod_cast Nat.pos_of_ne_zero hd
  have lo : (2 : Rat) ^ ((p : Int) - q - 1) ≤ x := by
    rw [e, le_div_iff₀ hdpos]
    calc (2 : Rat) ^ ((p : Int) - q - 1) * x.den
        ≤ (2 : Rat) ^ ((p : Int) - q - 1) * (2 : Rat) ^ (q + 1) :=
          mul_le_mul_of_nonneg_left b2.le (by positivity)
      _ = (2 : Rat) ^ p := by
          rw [← zpow_natCast, ← zpow_natCast, ← zpow_add₀ (by norm_num)]; congr 1; push_cast; ring
      _ ≤ _ := a1
  have hi : x < (2 : Rat) ^ ((p : Int) - q + 1) := by
    rw [e, div_lt_iff₀ hdpos]
    calc (x.num.natAbs : Rat) < (2 : Rat) ^ (p + 1) := a2
      _ = (2 : Rat) ^ ((p : Int) - q + 1) * (2 : Rat) ^ q := by
          rw [← zpow_natCast, ← zpow_natCast, ← zpow_add₀ (by norm_num)]; congr 1; push_cast; ring
      _ ≤ _ := mul_le_mul_of_nonneg_left b1 (by positivity)
  have hb : binExp x = if (2 : Rat) ^ ((p : Int) - q) ≤ x then (p : Int) - q else (p : Int) - q - 1 := rfl
  rw [hb]
  split
  · rename_i h; exact ⟨h, hi⟩
  · rename_i h
    exact ⟨lo, by simpa using not_le.1 h⟩

theorem ulp_pos (x : Rat) : 0 < ulp x := by unfold ulp; positivity

theorem absIf (x : Rat) : (if x < 0 then -x else x) = |x| := by
  split
  · rename_i h; rw [abs_of_neg h]
  · rename_i h; rw [abs_of_nonneg (not_lt.1 h)]

theorem ulp_exp (x : Rat) : ∃ k : Int, -149 ≤ k ∧ ulp x = (2 : Rat) ^ k ∧
    (k = -149 ∨ k = binExp |x| - 23) ∧ binExp |x| - 23 ≤ k := by
  refine ⟨max (binExp |x| - 23) (-149), le_max_right _ _, ?_, ?_, le_max_left _ _⟩
  · unfold ulp; rw [absIf]
  · rcases max_choice (binExp |x| - 23) (-149 : Int) with h | h <;> simp [h]

/-- The result of rounding is a float. -/
theorem f32Round_isFloat (x : Rat) : IsFloat (f32Round x) := by
  by_cases h0 : x = 0
  · exact ⟨0, 0, by norm_num, by norm_num, by simp [f32Round, h0]⟩
  obtain ⟨k, hk, hu, -, hge⟩ := ulp_exp x
  refine ⟨roundEven (x / ulp x), k, ?_, hk, by simp [f32Round, h0, hu]⟩
  have hs := (binExp_spec (abs_pos.2 h0)).2
  have hlt : |x / ulp x| < 2 ^ 24 := by
    rw [abs_div, abs_of_pos (ulp_pos x), div_lt_iff₀ (ulp_pos x), hu]
    refine hs.trans_le ?_
    calc (2 : Rat) ^ (binExp |x| + 1) ≤ (2 : Rat) ^ (24 + k) :=
          zpow_le_zpow_right₀ (by norm_num) (by omega)
      _ = 2 ^ 24 * (2 : Rat) ^ k := by rw [zpow_add₀ (by norm_num)]; norm_num
  have hn := roundEven_near (x / ulp x)
  rw [abs_lt] at hlt
  rw [abs_le] at hn
  have h1 : (roundEven (x / ulp x) : Rat) < ((2 ^ 24 + 1 : Int) : Rat) := by push_cast; linarith
  have h2 : ((-(2 ^ 24 + 1) : Int) : Rat) < (roundEven (x / ulp x) : Rat) := by push_cast; linarith
  have h1' : roundEven (x / ulp x) < 2 ^ 24 + 1 := by exact_mod_cast h1
  have h2' : -(2 ^ 24 + 1) < roundEven (x / ulp x) := by exact_mod_cast h2
  rw [abs_le]; omega

/-- The result of rounding is at least as near as any multiple of the ulp. -/
theorem f32Round_multiple (x : Rat) (n : Int) : |f32Round x - x| ≤ |n * ulp x - x| := by
  by_cases h0 : x = 0
  · subst h0; simp only [f32Round, if_true, sub_self, abs_zero]; exact abs_nonneg _
  have hu := ulp_pos x
  have hr := roundEven_nearest (x / ulp x) n
  have e (m : Int) : (m : Rat) * ulp x - x = ((m : Rat) - x / ulp x) * ulp x := by
    field_simp
  simp only [f32Round, h0, if_false]
  rw [e, e, abs_mul, abs_mul, abs_of_pos hu]
  exact mul_le_mul_of_nonneg_right hr hu.le

/-- The result of rounding is at least as near as any other float. -/
theorem f32Round_nearest (x f : Rat) (hf : IsFloat f) : |f32Round x - x| ≤ |f - x| := by
  by_cases h0 : x = 0
  · subst h0; simp [f32Round]
  obtain ⟨n, j, hn, hj, rfl⟩ := hf
  obtain ⟨k, hk, hu, hc, -⟩ := ulp_exp x
  by_cases hjk : k ≤ j
  · have : (n : Rat) * (2 : Rat) ^ j = ((n * 2 ^ (j - k).toNat : Int) : Rat) * ulp x := by
      push_cast
      rw [hu, mul_assoc, ← zpow_natCast, ← zpow_add₀ (by norm_num)]
      congr 2; omega
    rw [this]; exact f32Round_multiple x _
  · have hk2 : k = binExp |x| - 23 := by omega
    have hlo := (binExp_spec (abs_pos.2 h0)).1
    have hfb : |(n : Rat) * (2 : Rat) ^ j| ≤ (2 : Rat) ^ binExp |x| := by
      rw [abs_mul, abs_of_pos (by positivity : (0 : Rat) < (2 : Rat) ^ j)]
      have hnr : |(n : Rat)| ≤ 2 ^ 24 := by exact_mod_cast hn
      calc |(n : Rat)| * (2 : Rat) ^ j ≤ 2 ^ 24 * (2 : Rat) ^ j :=
            mul_le_mul_of_nonneg_right hnr (by positivity)
        _ = (2 : Rat) ^ (24 + j) := by rw [zpow_add₀ (by norm_num)]; norm_num
        _ ≤ _ := zpow_le_zpow_right₀ (by norm_num) (by omega)
    have hm : (2 : Rat) ^ binExp |x| = 2 ^ 23 * ulp x := by
      rw [hu, hk2, show binExp |x| = 23 + (binExp |x| - 23) by ring, zpow_add₀ (by norm_num)]
      norm_num
    rw [abs_le] at hfb
    rcases lt_or_gt_of_ne h0 with hneg | hpos
    · rw [abs_of_neg hneg] at hlo hm hfb
      have h := f32Round_multiple x (-(2 ^ 23))
      have e1 : ((-(2 ^ 23) : Int) : Rat) * ulp x - x = -x - (2 : Rat) ^ binExp (-x) := by
        rw [hm]; push_cast; ring
      rw [e1, abs_of_nonneg (a := -x - (2 : Rat) ^ binExp (-x)) (by linarith)] at h
      rw [abs_of_nonneg (a := (n : Rat) * 2 ^ j - x) (by linarith)]
      linarith
    · rw [abs_of_pos hpos] at hlo hm hfb
      have h := f32Round_multiple x (2 ^ 23)
      have e1 : ((2 ^ 23 : Int) : Rat) * ulp x - x = -(x - (2 : Rat) ^ binExp x) := by
        rw [hm]; push_cast; ring
      rw [e1, abs_neg, abs_of_nonneg (a := x - (2 : Rat) ^ binExp x) (by linarith)] at h
      rw [abs_of_nonpos (a := (n : Rat) * 2 ^ j - x) (by linarith)]
      linarith

/-- Floats are left alone. -/
theorem f32Round_float {x : Rat} (h : IsFloat x) : f32Round x = x := by
  have := f32Round_nearest x x h
  simp only [sub_self, abs_zero] at this
  exact sub_eq_zero.1 (abs_eq_zero.1 (le_antisymm this (abs_nonneg _)))

/-- Rounding is monotone. -/
theorem f32Round_mono {x y : Rat} (h : x ≤ y) : f32Round x ≤ f32Round y := by
  by_contra hc
  rw [not_le] at hc
  have h1 := f32Round_nearest x _ (f32Round_isFloat y)
  have h2 := f32Round_nearest y _ (f32Round_isFloat x)
  rcases eq_or_lt_of_le h with rfl | hlt
  · exact lt_irrefl _ hc
  · rcases abs_cases (f32Round x - x) with ⟨a, _⟩ | ⟨a, _⟩ <;>
    rcases abs_cases (f32Round y - x) with ⟨b, _⟩ | ⟨b, _⟩ <;>
    rcases abs_cases (f32Round x - y) with ⟨c, _⟩ | ⟨c, _⟩ <;>
    rcases abs_cases (f32Round y - y) with ⟨d, _⟩ | ⟨d, _⟩ <;>
    rw [a, b] at h1 <;> rw [c, d] at h2 <;> linarith

/-- The error of rounding. -/
theorem f32Round_error (x : Rat) : |f32Round x - x| ≤ ulp x / 2 := by
  by_cases h0 : x = 0
  · subst h0; simp only [f32Round, if_true, sub_self, abs_zero]; exact (half_pos (ulp_pos 0)).le
  have hu := ulp_pos x
  have e : (roundEven (x / ulp x) : Rat) * ulp x - x
      = ((roundEven (x / ulp x) : Rat) - x / ulp x) * ulp x := by field_simp
  simp only [f32Round, h0, if_false]
  rw [e, abs_mul, abs_of_pos hu]
  have := mul_le_mul_of_nonneg_right (roundEven_near (x / ulp x)) hu.le
  linarith

/-- Bounds on the ulp of bounded numbers. -/
theorem ulp_le {x : Rat} (h0 : x ≠ 0) (k : Int) (hk : -149 ≤ k) (h : |x| < (2 : Rat) ^ (k + 24)) :
    ulp x ≤ (2 : Rat) ^ k := by
  have h1 := (binExp_spec (abs_pos.2 h0)).1
  have h2 : binExp |x| < k + 24 := (zpow_lt_zpow_iff_right₀ (by norm_num : (1 : Rat) < 2)).1 (h1.trans_lt h)
  unfold ulp; rw [absIf]
  exact zpow_le_zpow_right₀ (by norm_num) (max_le (by omega) hk)

theorem isFloat_neg {x : Rat} (h : IsFloat x) : IsFloat (-x) := by
  obtain ⟨n, k, hn, hk, rfl⟩ := h
  exact ⟨-n, k, by rwa [abs_neg], hk, by push_cast; ring⟩

/-- Fractions with a power of two as denominator are floats when small enough. -/
theorem isFloat_frac {x : Rat} (k : Nat) (hk : k ≤ 149) (n : Int) (hx : x * 2 ^ k = n)
    (hb : |x| * 2 ^ k ≤ 2 ^ 24) : IsFloat x := by
  have hp : (0 : Rat) < 2 ^ k := by positivity
  refine ⟨n, -(k : Int), ?_, by omega, ?_⟩
  · have : |(n : Rat)| ≤ 2 ^ 24 := by rw [← hx, abs_mul, abs_of_pos hp]; exact hb
    exact_mod_cast this
  · rw [← hx, zpow_neg, zpow_natCast, mul_assoc, mul_inv_cancel₀ hp.ne', mul_one]

end RichText
