import Verif.Model.Color
import Verif.Proof.FontSize
import Mathlib.Tactic.Linarith
import Mathlib.Tactic.Positivity
import Mathlib.Tactic.FieldSimp
import Mathlib.Tactic.Ring
import Mathlib.Tactic.NormNum
import Mathlib.Data.Rat.Floor
import Mathlib.Algebra.Order.Floor.Semifield
import Mathlib.Algebra.Order.Field.Power
/-! The relative error of binary32 arithmetic. -/
namespace RichText

/-- The value of a float. -/
def F32.val (a : F32) : ℚ := a.m * (2 : ℚ) ^ a.e

theorem F32.val_nonneg (a : F32) : 0 ≤ a.val := by unfold F32.val; positivity

/-- Within a relative error of 2^-23. -/
def Near (x y : ℚ) : Prop := y * (1 - 1 / 2 ^ 23) ≤ x ∧ x ≤ y * (1 + 1 / 2 ^ 23)

theorem round_near (m : Nat) (e : Int) :
    (m : ℚ) * 2 ^ e * (1 - 1 / 2 ^ 24) ≤ (F32.round m e).val ∧ (F32.round m e).val ≤ (m : ℚ) * 2 ^ e * (1 + 1 / 2 ^ 24) := by
  have he : (0 : ℚ) < 2 ^ e := by positivity
  unfold F32.round
  split
  · unfold F32.val
    simp only
    have : (0 : ℚ) ≤ (m : ℚ) * 2 ^ e := by positivity
    constructor <;> nlinarith
  · rename_i h
    obtain ⟨h1, h2, h3⟩ := log2_bounds (Nat.le_of_not_lt h)
    obtain ⟨h4, h5⟩ := roundShift_bounds m (Nat.log2 m - 23)
    generalize Nat.log2 m - 23 = L at *
    generalize roundShift m L = Q at *
    unfold F32.val
    simp only
    rw [zpow_add₀ (by norm_num), zpow_natCast]
    have h1' : (2 : ℚ) ^ L * 2 ^ 23 ≤ m := by exact_mod_cast h1
    have h4' : 2 * (m : ℚ) ≤ 2 * (Q * 2 ^ L) + 2 ^ L := by exact_mod_cast h4
    have h5' : 2 * ((Q : ℚ) * 2 ^ L) ≤ 2 * m + 2 ^ L := by exact_mod_cast h5
    have a1 : (m : ℚ) * (1 - 1 / 2 ^ 24) ≤ Q * 2 ^ L := by linarith
    have a2 : (Q : ℚ) * 2 ^ L ≤ m * (1 + 1 / 2 ^ 24) := by linarith
    constructor
    · calc (m : ℚ) * 2 ^ e * (1 - 1 / 2 ^ 24) = m * (1 - 1 / 2 ^ 24) * 2 ^ e := by ring
        _ ≤ (Q : ℚ) * 2 ^ L * 2 ^ e := mul_le_mul_of_nonneg_right a1 he.le
        _ = (Q : ℚ) * (2 ^ e * 2 ^ L) := by ring
    · calc (Q : ℚ) * (2 ^ e * 2 ^ L) = Q * 2 ^ L * 2 ^ e := by ring
        _ ≤ (m : ℚ) * (1 + 1 / 2 ^ 24) * 2 ^ e := mul_le_mul_of_nonneg_right a2 he.le
        _ = (m : ℚ) * 2 ^ e * (1 + 1 / 2 ^ 24) := by ring

theorem mul_near (a b : F32) : Near (a.mul b).val (a.val * b.val) := by
  have h := round_near (a.m * b.m) (a.e + b.e)
  have he : ((a.m * b.m : Nat) : ℚ) * 2 ^ (a.e + b.e) = a.val * b.val := by
    unfold F32.val
    rw [zpow_add₀ (by norm_num)]
    push_cast
    ring
  rw [he] at h
  have h0 : 0 ≤ a.val * b.val := mul_nonneg a.val_nonneg b.val_nonneg
  unfold F32.mul Near
  constructor <;> nlinarith [h.1, h.2]

theorem div_near {a b : F32} (hb : b.m ≠ 0) : ∃ q, a.div b = some q ∧ Near q.val (a.val / b.val) := by
  unfold F32.div
  rw [if_neg hb]
  simp only
  refine ⟨_, rfl, ?_⟩
  have hbpos : 0 < b.m := Nat.pos_of_ne_zero hb
  generalize hk : Nat.log2 b.m + 26 = k
  have hk' : b.m * 2 ^ 26 ≤ 2 * 2 ^ k := by
    have := Nat.lt_log2_self (n := b.m)
    have h2 : 2 ^ (Nat.log2 b.m + 1) * 2 ^ 26 = 2 * 2 ^ k := by rw [← Nat.pow_add, ← hk, ← Nat.pow_succ']
    rw [← h2]
    exact Nat.mul_le_mul_right _ this.le
  have hdm := Nat.div_add_mod (a.m * 2 ^ k) b.m
  have hml := Nat.mod_lt (a.m * 2 ^ k) hbpos
  generalize a.m * 2 ^ k / b.m = q at *
  generalize hr : a.m * 2 ^ k % b.m = r at *
  generalize hs : (if r = 0 then 0 else 1 : Nat) = s
  -- the scaled quotient
  have hB : (0 : ℚ) < b.m := by exact_mod_cast hbpos
  have hdm' : (b.m : ℚ) * q + r = a.m * 2 ^ k := by exact_mod_cast hdm
  have hml' : (r : ℚ) < b.m := by exact_mod_cast hml
  have ht : (a.m : ℚ) * 2 ^ (k + 1) / b.m = 2 * q + 2 * r / b.m := by
    rw [pow_succ, ← mul_assoc, ← hdm']
    field_simp
  have hsr : |((2 * q + s : Nat) : ℚ) - (a.m : ℚ) * 2 ^ (k + 1) / b.m| ≤ (a.m : ℚ) * 2 ^ (k + 1) / b.m / 2 ^ 26 := by
    rw [ht]
    rcases Nat.eq_zero_or_pos a.m with ha | ha
    · have hz : a.m * 2 ^ k = 0 := by rw [ha]; simp
      rw [hz] at hdm hr
      have hr0 : r = 0 := by rw [← hr]; simp
      have hq0 : q = 0 := by
        rw [hr0, Nat.add_zero] at hdm
        rcases Nat.mul_eq_zero.1 hdm with h | h
        · exact absurd h hb
        · exact h
      rw [hr0, if_pos rfl] at hs
      rw [hq0, ← hs, hr0]
      simp
    · have hbig : (2 : ℚ) ^ 26 ≤ 2 * q + 2 * r / b.m := by
        rw [← ht, le_div_iff₀ hB]
        have h1 : (b.m : ℚ) * 2 ^ 26 ≤ 2 * 2 ^ k := by exact_mod_cast hk'
        have h2 : (1 : ℚ) ≤ a.m := by exact_mod_cast ha
        have h3 : (0 : ℚ) ≤ 2 * 2 ^ k := by positivity
        calc (2 : ℚ) ^ 26 * b.m ≤ 2 * 2 ^ k := by linarith
          _ = 1 * (2 * 2 ^ k) := by ring
          _ ≤ a.m * (2 * 2 ^ k) := mul_le_mul_of_nonneg_right h2 h3
          _ = a.m * 2 ^ (k + 1) := by rw [pow_succ]; ring
      have hr0 : (0 : ℚ) ≤ 2 * r / b.m := by positivity
      have hr2 : 2 * (r : ℚ) / b.m < 2 := by rw [div_lt_iff₀ hB]; linarith
      have h1 : |((2 * q + s : Nat) : ℚ) - (2 * q + 2 * r / b.m)| ≤ 1 := by
        rw [abs_le]
        push_cast
        rcases Nat.eq_zero_or_pos r with h0 | h0
        · rw [h0, if_pos rfl] at hs
          rw [← hs, h0]
          constructor <;> simp
        · rw [if_neg (by omega)] at hs
          rw [← hs]
          push_cast
          constructor <;> linarith
      linarith
  have hround := round_near (2 * q + s) (a.e - b.e - ((k + 1 : Nat) : Int))
  have hval : a.val / b.val = (a.m : ℚ) * 2 ^ (k + 1) / b.m * 2 ^ (a.e - b.e - ((k + 1 : Nat) : Int)) := by
    unfold F32.val
    rw [zpow_sub₀ (by norm_num), zpow_sub₀ (by norm_num), zpow_natCast]
    field_simp
  rw [hval]
  have hE : (0 : ℚ) < 2 ^ (a.e - b.e - ((k + 1 : Nat) : Int)) := by positivity
  generalize (2 : ℚ) ^ (a.e - b.e - ((k + 1 : Nat) : Int)) = E at *
  have hT : (0 : ℚ) ≤ (a.m : ℚ) * 2 ^ (k + 1) / b.m := by positivity
  generalize (a.m : ℚ) * 2 ^ (k + 1) / b.m = T at *
  generalize ((2 * q + s : Nat) : ℚ) = X at *
  obtain ⟨h1, h2⟩ := abs_le.1 hsr
  have hTE : 0 ≤ T * E := by positivity
  have g1 : T * E * (1 - 1 / 2 ^ 26) ≤ X * E := by
    calc T * E * (1 - 1 / 2 ^ 26) = (T - T / 2 ^ 26) * E := by ring
      _ ≤ X * E := mul_le_mul_of_nonneg_right (by linarith) hE.le
  have g2 : X * E ≤ T * E * (1 + 1 / 2 ^ 26) := by
    calc X * E ≤ (T + T / 2 ^ 26) * E := mul_le_mul_of_nonneg_right (by linarith) hE.le
      _ = T * E * (1 + 1 / 2 ^ 26) := by ring
  unfold Near
  constructor <;> linarith [hround.1, hround.2]

theorem toUInt32_floor {a : F32} (h : a.val < 2 ^ 32) : a.toUInt32 = some ⌊a.val⌋₊ := by
  have hn : (if a.e ≥ 0 then a.m * 2 ^ a.e.toNat else a.m / 2 ^ (-a.e).toNat) = ⌊a.val⌋₊ := by
    unfold F32.val
    split
    · rename_i he
      obtain ⟨n, hn⟩ := Int.eq_ofNat_of_zero_le he
      rw [hn, zpow_natCast, Int.toNat_natCast]
      rw [show (a.m : ℚ) * 2 ^ n = ((a.m * 2 ^ n : Nat) : ℚ) by push_cast; ring, Nat.floor_natCast]
    · rename_i he
      obtain ⟨n, hn⟩ := Int.eq_ofNat_of_zero_le (show 0 ≤ -a.e by omega)
      have ha : a.e = -(n : Int) := by omega
      rw [hn, ha, zpow_neg, zpow_natCast, Int.toNat_natCast, ← div_eq_mul_inv,
        show (a.m : ℚ) / 2 ^ n = (a.m : ℚ) / ((2 ^ n : Nat) : ℚ) by push_cast; rfl, Nat.floor_div_eq_div]
  unfold F32.toUInt32
  simp only
  rw [hn, if_pos]
  rw [Nat.floor_lt a.val_nonneg]
  exact_mod_cast h

end RichText
