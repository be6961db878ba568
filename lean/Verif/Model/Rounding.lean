/-!
Rounding of IEEE 754 binary32: round to nearest, ties to even, with gradual
underflow.  Numbers are exact rationals; overflow is not modelled (nothing in a
layout comes near 2^128).
-/
namespace RichText

/-- The nearest integer, ties to the even one. -/
def roundEven (x : Rat) : Int :=
  if x - x.floor < 1 / 2 then x.floor
  else if 1 / 2 < x - x.floor then x.floor + 1
  else if x.floor % 2 = 0 then x.floor else x.floor + 1

/-- The exponent of a positive number: the greatest `e` with `2^e ≤ x`. -/
def binExp (x : Rat) : Int :=
  let l : Int := (Nat.log2 x.num.natAbs : Int) - Nat.log2 x.den
  if (2 : Rat) ^ l ≤ x then l else l - 1

/-- The distance of the numbers with 24 significant bits around a number. -/
def ulp (x : Rat) : Rat := (2 : Rat) ^ max (binExp (if x < 0 then -x else x) - 23) (-149)

/-- A number rounded to `float`. -/
def f32Round (x : Rat) : Rat := if x = 0 then 0 else roundEven (x / ulp x) * ulp x

end RichText
