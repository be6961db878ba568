/-!
Font sizes: `calc_font_scale_modifier` and `calc_effective_font_size` of
`src/font_common.hpp`, with IEEE 754 binary32 arithmetic (round to nearest, ties
to even; `FLT_EVAL_METHOD` 0).

Only non-negative numbers far from the limits of the exponent occur, so a number
is `m * 2^e` with integers `m`, `e` and rounding keeps 24 bits of `m`.
-/
namespace RichText

/-- The number `m * 2^e`. -/
structure F32 where
  m : Nat
  e : Int
deriving Repr, DecidableEq

/-- `m / 2^k` rounded to the nearest integer, ties to even. -/
def roundShift (m k : Nat) : Nat :=
  let q := m / 2 ^ k
  let r := m % 2 ^ k
  if 2 * r > 2 ^ k ∨ (2 * r = 2 ^ k ∧ q % 2 = 1) then q + 1 else q

/-- Round `m * 2^e` to 24 significant bits. -/
def F32.round (m : Nat) (e : Int) : F32 :=
  if m < 2 ^ 24 then ⟨m, e⟩ else ⟨roundShift m (Nat.log2 m - 23), e + (Nat.log2 m - 23 : Nat)⟩

/-- Conversion of a `uint32_t` to `float`. -/
def F32.ofNat (n : Nat) : F32 := .round n 0

/-- Multiplication. -/
def F32.mul (a b : F32) : F32 := .round (a.m * b.m) (a.e + b.e)

/-- Conversion to `uint32_t`: towards zero, undefined if the result does not
fit. -/
def F32.toUInt32 (a : F32) : Option Nat :=
  let n := if a.e ≥ 0 then a.m * 2 ^ a.e.toNat else a.m / 2 ^ (-a.e).toNat
  if n < 2 ^ 32 then some n else none

/-- `1.f`. -/
def f32One : F32 := ⟨1, 0⟩
/-- `GLYPH_SUB_SUPER_SCALE`, src/font_common.hpp:88: `0.7f`. -/
def f32SubSuper : F32 := ⟨11744051, -24⟩
/-- `GLYPH_SMALL_CAPS_SCALE`, src/font_common.hpp:89: `0.8f`. -/
def f32SmallCaps : F32 := ⟨13421773, -24⟩

/-- `calc_font_scale_modifier`, src/font_common.hpp:96-101. -/
def fontScale (smallCaps subSuper : Bool) : F32 :=
  (f32One.mul (if subSuper then f32SubSuper else f32One)).mul (if smallCaps then f32SmallCaps else f32One)

/-- `calc_effective_font_size`, src/font_common.hpp:103-106. -/
def effectiveSize (base : Nat) (smallCaps subSuper : Bool) : Option Nat :=
  ((F32.ofNat base).mul (fontScale smallCaps subSuper)).toUInt32

end RichText
