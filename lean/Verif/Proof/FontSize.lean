import Verif.Model.FontSize
import Mathlib.Tactic.Linarith
/-! Proofs about font sizes (C63). -/
namespace RichText

theorem roundShift_bounds (m k : Nat) : 2 * m ≤ 2 * (roundShift m k * 2 ^ k) + 2 ^ k ∧ 2 * (roundShift m k * 2 ^ k) ≤ 2 * m + 2 ^ k := by
  have h1 := Nat.div_add_mod m (2 ^ k)
  have h2 := Nat.mod_lt m (Nat.two_pow_pos k)
  unfold roundShift
  simp only
  generalize 2 ^ k = t at *
  generalize m / t = q at *
  generalize m % t = r at *
  rw [Nat.mul_comm] at h1
  split
  · rename_i h
    rw [Nat.add_mul]
    rcases h with h | ⟨h, _⟩ <;> constructor <;> omega
  · rename_i h
    have : 2 * r ≤ t := by
      rcases Nat.lt_or_ge t (2 * r) with h3 | h3
      · exact absurd (.inl h3) h
      · exact h3
    constructor <;> omega

theorem log2_bounds {m : Nat} (h : 2 ^ 24 ≤ m) : 2 ^ (Nat.log2 m - 23) * 2 ^ 23 ≤ m ∧ m < 2 ^ (Nat.log2 m - 23) * 2 ^ 24 ∧ 24 ≤ Nat.log2 m := by
  have hm : m ≠ 0 := by intro h0; subst h0; exact absurd h (by decide)
  have hl : 24 ≤ Nat.log2 m := by rwa [Nat.le_log2 hm]
  have h1 := Nat.log2_self_le hm
  have h2 := Nat.lt_log2_self (n := m)
  refine ⟨?_, ?_, hl⟩
  · rw [← Nat.pow_add, show Nat.log2 m - 23 + 23 = Nat.log2 m by omega]; exact h1
  · rw [← Nat.pow_add, show Nat.log2 m - 23 + 24 = Nat.log2 m + 1 by omega]; exact h2

theorem floor_of_bounds {q T U N : Nat} (hUT : U * T = 2 ^ 24) (h1 : N * 2 ^ 24 < q * T + T) (h2 : q * T < (N + 1) * 2 ^ 24) :
    q / U = N := by
  have hT : 0 < T := by
    rcases Nat.eq_zero_or_pos T with h | h
    · subst h; omega
    · exact h
  have hU : 0 < U := by
    rcases Nat.eq_zero_or_pos U with h | h
    · subst h; omega
    · exact h
  rw [← hUT, ← Nat.mul_assoc] at h1 h2
  have a1 : N * U < q + 1 := by
    have : N * U * T < (q + 1) * T := by rw [Nat.add_mul, Nat.one_mul]; exact h1
    exact Nat.lt_of_mul_lt_mul_right this
  have a2 : q < (N + 1) * U := Nat.lt_of_mul_lt_mul_right h2
  have b1 : N ≤ q / U := (Nat.le_div_iff_mul_le hU).2 (by omega)
  have b2 : q / U < N + 1 := (Nat.div_lt_iff_lt_mul hU).2 a2
  omega

/-- The product of a size and a scale below one, rounded and truncated. -/
theorem mul_toUInt32 (base S N : Nat) (hb : base < 2 ^ 20) (hS : S < 2 ^ 24) (hbig : 2 ^ 24 ≤ base * S)
    (h : ∀ T Q : Nat, T * 2 ^ 23 ≤ base * S → base * S < T * 2 ^ 24 → 2 * (base * S) ≤ 2 * Q + T → 2 * Q ≤ 2 * (base * S) + T →
      N * 2 ^ 24 < Q + T ∧ Q < (N + 1) * 2 ^ 24) (hN : N < 2 ^ 32) :
    (F32.mul ⟨base, 0⟩ ⟨S, -24⟩).toUInt32 = some N := by
  unfold F32.mul F32.round
  simp only
  rw [if_neg (by omega)]
  obtain ⟨l1, l2, l3⟩ := log2_bounds hbig
  obtain ⟨r1, r2⟩ := roundShift_bounds (base * S) (Nat.log2 (base * S) - 23)
  generalize hL : Nat.log2 (base * S) - 23 = L at *
  have hL20 : L ≤ 20 := by
    rcases Nat.lt_or_ge 20 L with hc | hc
    · exfalso
      have h1 : 2 ^ 21 ≤ 2 ^ L := Nat.pow_le_pow_right (by decide) hc
      have h2 : base * S < 2 ^ 20 * 2 ^ 24 := Nat.mul_lt_mul_of_lt_of_le hb (Nat.le_of_lt hS) (by decide)
      omega
    · exact hc
  obtain ⟨f1, f2⟩ := h _ _ l1 l2 r1 r2
  generalize roundShift (base * S) L = q at *
  have hq : q / 2 ^ (24 - L) = N := by
    refine floor_of_bounds (T := 2 ^ L) ?_ f1 f2
    rw [← Nat.pow_add, show 24 - L + L = 24 by omega]
  unfold F32.toUInt32
  simp only
  have hneg : ¬ (0 + -24 + (L : Int)) ≥ 0 := by omega
  rw [if_neg hneg, show (-((0 : Int) + -24 + (L : Nat))).toNat = 24 - L by omega, hq, if_pos hN]

theorem ofNat_small {n : Nat} (h : n < 2 ^ 24) : F32.ofNat n = ⟨n, 0⟩ := by
  unfold F32.ofNat F32.round
  rw [if_pos h]

theorem scale_ff : fontScale false false = ⟨1, 0⟩ := by decide +kernel
theorem scale_ft : fontScale false true = ⟨11744051, -24⟩ := by decide +kernel
theorem scale_tf : fontScale true false = ⟨13421773, -24⟩ := by decide +kernel
theorem scale_tt : fontScale true true = ⟨9395241, -24⟩ := by decide +kernel

theorem small_sizes (b : Nat) (hb : b < 2) (smallCaps subSuper : Bool) :
    effectiveSize b smallCaps subSuper = some (if smallCaps || subSuper then 0 else b) := by
  have : b = 0 ∨ b = 1 := by omega
  rcases this with rfl | rfl <;> cases smallCaps <;> cases subSuper <;> decide +kernel

theorem effective_plain {b : Nat} (hb : b < 2 ^ 24) : effectiveSize b false false = some b := by
  unfold effectiveSize
  rw [ofNat_small hb, scale_ff]
  unfold F32.mul F32.round
  simp only [Nat.mul_one]
  rw [if_pos hb]
  unfold F32.toUInt32
  simp
  omega

theorem effective_subSuper {b : Nat} (hb : b < 2 ^ 20) : effectiveSize b false true = some (b * 7 / 10) := by
  rcases Nat.lt_or_ge b 2 with h2 | h2
  · rw [small_sizes b h2]
    simp only [Bool.or_true, if_true]
    congr 1; omega
  · unfold effectiveSize
    rw [ofNat_small (n := b) (Nat.lt_of_lt_of_le hb (by decide)), scale_ft]
    refine mul_toUInt32 b 11744051 _ hb (by decide) (by omega) ?_ (by omega)
    intro T Q h1 h2 h3 h4
    have n1 : b * 7 / 10 * 10 ≤ b * 7 := Nat.div_mul_le_self _ _
    have n2 : b * 7 + 1 ≤ b * 7 / 10 * 10 + 10 := by omega
    generalize b * 7 / 10 = N at n1 n2 ⊢
    constructor <;> linarith

theorem effective_smallCaps {b : Nat} (hb : b < 2 ^ 20) : effectiveSize b true false = some (b * 8 / 10) := by
  rcases Nat.lt_or_ge b 2 with h2 | h2
  · rw [small_sizes b h2]
    simp only [Bool.true_or, if_true]
    congr 1; omega
  · unfold effectiveSize
    rw [ofNat_small (n := b) (Nat.lt_of_lt_of_le hb (by decide)), scale_tf]
    refine mul_toUInt32 b 13421773 _ hb (by decide) (by omega) ?_ (by omega)
    intro T Q h1 h2 h3 h4
    have n1 : b * 8 / 10 * 10 ≤ b * 8 := Nat.div_mul_le_self _ _
    have n2 : b * 8 + 1 ≤ b * 8 / 10 * 10 + 10 := by omega
    generalize b * 8 / 10 = N at n1 n2 ⊢
    constructor <;> linarith

theorem effective_both {b : Nat} (hb : b < 2 ^ 20) : effectiveSize b true true = some (b * 56 / 100) := by
  rcases Nat.lt_or_ge b 2 with h2 | h2
  · rw [small_sizes b h2]
    simp only [Bool.true_or, if_true]
    congr 1; omega
  · unfold effectiveSize
    rw [ofNat_small (n := b) (Nat.lt_of_lt_of_le hb (by decide)), scale_tt]
    refine mul_toUInt32 b 9395241 _ hb (by decide) (by omega) ?_ (by omega)
    intro T Q h1 h2 h3 h4
    have n1 : b * 56 / 100 * 100 ≤ b * 56 := Nat.div_mul_le_self _ _
    have n2 : b * 56 + 4 ≤ b * 56 / 100 * 100 + 100 := by omega
    generalize b * 56 / 100 = N at n1 n2 ⊢
    constructor <;> linarith

/-- The number truncated, as far as it is one. -/
def F32.trunc (a : F32) : Nat := if a.e ≥ 0 then a.m * 2 ^ a.e.toNat else a.m / 2 ^ (-a.e).toNat

theorem toUInt32_eq (a : F32) : a.toUInt32 = if a.trunc < 2 ^ 32 then some a.trunc else none := rfl

/-- Rounding a number without more than 24 bits changes nothing. -/
theorem round_trunc (m k : Nat) (h : m ≤ 2 ^ 24) : (F32.round m k).trunc = m * 2 ^ k := by
  unfold F32.round
  split
  · unfold F32.trunc; simp
  · have : m = 2 ^ 24 := by omega
    subst this
    rw [show Nat.log2 (2 ^ 24) - 23 = 1 by decide +kernel, show roundShift (2 ^ 24) 1 = 2 ^ 23 by decide +kernel]
    unfold F32.trunc
    simp only
    rw [if_pos (by omega), show ((k : Int) + ((1 : Nat) : Int)).toNat = k + 1 by omega, Nat.pow_succ]
    omega

/-- A 32-bit size as a float: 24 bits and a power of two. -/
theorem ofNat_shape {b : Nat} (hb : b < 2 ^ 32) : ∃ q L : Nat, F32.ofNat b = ⟨q, (L : Int)⟩ ∧ q ≤ 2 ^ 24 ∧ L ≤ 8 ∧
    (L = 0 ∧ q = b ∧ b < 2 ^ 24 ∨ q = roundShift b L ∧ 2 ^ L * 2 ^ 23 ≤ b ∧ b < 2 ^ L * 2 ^ 24) := by
  rcases Nat.lt_or_ge b (2 ^ 24) with h | h
  · exact ⟨b, 0, ofNat_small h, by omega, by omega, .inl ⟨rfl, rfl, h⟩⟩
  · obtain ⟨l1, l2, l3⟩ := log2_bounds h
    have hr := roundShift_bounds b (Nat.log2 b - 23)
    refine ⟨roundShift b (Nat.log2 b - 23), Nat.log2 b - 23, ?_, ?_, ?_, .inr ⟨rfl, l1, l2⟩⟩
    · unfold F32.ofNat F32.round
      rw [if_neg (by omega)]
      simp
    · have h2 := Nat.two_pow_pos (Nat.log2 b - 23)
      generalize 2 ^ (Nat.log2 b - 23) = T at *
      generalize roundShift b (Nat.log2 b - 23) = q at *
      rcases Nat.lt_or_ge (2 ^ 24) q with hq | hq
      · exfalso
        have : (2 ^ 24 + 1) * T ≤ q * T := Nat.mul_le_mul_right _ hq
        rw [Nat.add_mul] at this
        omega
      · exact hq
    · rcases Nat.lt_or_ge 8 (Nat.log2 b - 23) with hc | hc
      · exfalso
        have : 2 ^ 9 ≤ 2 ^ (Nat.log2 b - 23) := Nat.pow_le_pow_right (by decide) hc
        omega
      · exact hc

/-- Without scaling: defined for sizes below `2^32 - 128` only. -/
theorem effective_plain_none {b : Nat} (hb : b < 2 ^ 32) : effectiveSize b false false = none ↔ 2 ^ 32 - 128 ≤ b := by
  obtain ⟨q, L, e1, e2, e3, e4⟩ := ofNat_shape hb
  unfold effectiveSize
  rw [e1, scale_ff, toUInt32_eq]
  have ht : (F32.mul ⟨q, (L : Int)⟩ ⟨1, 0⟩).trunc = q * 2 ^ L := by
    unfold F32.mul
    simp only [Nat.mul_one, Int.add_zero]
    exact round_trunc q L e2
  rw [ht]
  rcases e4 with ⟨rfl, rfl, h⟩ | ⟨hq, h1, h2⟩
  · constructor
    · intro hn; split at hn
      · cases hn
      · omega
    · intro hn; omega
  · rcases Nat.lt_or_ge L 8 with hL | hL
    · have hp : 2 ^ L ≤ 2 ^ 7 := Nat.pow_le_pow_right (by decide) (by omega)
      have : q * 2 ^ L ≤ 2 ^ 24 * 2 ^ 7 := Nat.mul_le_mul e2 hp
      constructor
      · intro hn; rw [if_pos (by omega)] at hn; cases hn
      · intro hn; omega
    · obtain rfl : L = 8 := by omega
      have key : q * 2 ^ 8 < 2 ^ 32 ↔ b < 2 ^ 32 - 128 := by
        rw [hq]
        unfold roundShift
        simp only
        split <;> omega
      constructor
      · intro hn
        split at hn
        · cases hn
        · rename_i hge
          rw [key] at hge
          omega
      · intro hn
        rw [if_neg (by rw [key]; omega)]

/-- With scaling: always defined. -/
theorem effective_scaled_some {b : Nat} (hb : b < 2 ^ 32) (smallCaps subSuper : Bool) (hs : smallCaps || subSuper) :
    ∃ n, effectiveSize b smallCaps subSuper = some n := by
  obtain ⟨q, L, e1, e2, e3, _⟩ := ofNat_shape hb
  obtain ⟨S, hS, hS2⟩ : ∃ S, fontScale smallCaps subSuper = ⟨S, -24⟩ ∧ S ≤ 13421773 := by
    cases smallCaps <;> cases subSuper
    · cases hs
    · exact ⟨_, scale_ft, by decide⟩
    · exact ⟨_, scale_tf, by decide⟩
    · exact ⟨_, scale_tt, by decide⟩
  unfold effectiveSize
  rw [e1, hS, toUInt32_eq]
  have hp : q * S ≤ 2 ^ 24 * 13421773 := Nat.mul_le_mul e2 hS2
  have hlt : (F32.mul ⟨q, (L : Int)⟩ ⟨S, -24⟩).trunc < 2 ^ 32 := by
    unfold F32.mul F32.round
    simp only
    generalize q * S = p at hp
    split
    · rename_i hsm
      unfold F32.trunc
      simp only
      rw [if_neg (by omega)]
      exact Nat.lt_of_le_of_lt (Nat.div_le_self _ _) (by omega)
    · rename_i hbig
      have hbig : 2 ^ 24 ≤ p := by omega
      obtain ⟨l1, l2, l3⟩ := log2_bounds hbig
      obtain ⟨r1, r2⟩ := roundShift_bounds p (Nat.log2 p - 23)
      generalize Nat.log2 p - 23 = K at *
      generalize roundShift p K = m at *
      have hK : K ≤ 24 := by
        rcases Nat.lt_or_ge 24 K with hc | hc
        · exfalso
          have : 2 ^ 25 ≤ 2 ^ K := Nat.pow_le_pow_right (by decide) hc
          omega
        · exact hc
      have hm : m * 2 ^ K ≤ 2 ^ 24 * 13421774 := by
        have : 2 ^ K ≤ 2 ^ 24 := Nat.pow_le_pow_right (by decide) hK
        omega
      unfold F32.trunc
      simp only
      split
      · rename_i hge
        have hx : m * 2 ^ ((L : Int) + -24 + (K : Nat)).toNat * 2 ^ 24 = m * 2 ^ K * 2 ^ L := by
          rw [Nat.mul_assoc, Nat.mul_assoc, ← Nat.pow_add, ← Nat.pow_add]
          congr 2; omega
        have hL : 2 ^ L ≤ 2 ^ 8 := Nat.pow_le_pow_right (by decide) e3
        have : m * 2 ^ K * 2 ^ L ≤ 2 ^ 24 * 13421774 * 2 ^ 8 := Nat.mul_le_mul hm hL
        rw [← hx] at this
        omega
      · have h24 : m ≤ 2 ^ 24 := by
          have h2 := Nat.two_pow_pos K
          generalize 2 ^ K = T at *
          rcases Nat.lt_or_ge (2 ^ 24) m with hq | hq
          · exfalso
            have : (2 ^ 24 + 1) * T ≤ m * T := Nat.mul_le_mul_right _ hq
            rw [Nat.add_mul] at this
            omega
          · exact hq
        exact Nat.lt_of_le_of_lt (Nat.div_le_self _ _) (by omega)
  rw [if_pos hlt]
  exact ⟨_, rfl⟩

end RichText
