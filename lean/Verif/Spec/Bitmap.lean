import Verif.Model.Bitmap
/-!
Notions for stating what drawing into a bitmap changes.
-/
namespace RichText

/-- A bitmap has a pixel for every place, and fewer than 2^31 rows, columns and pixels. -/
structure Bitmap.OK (b : Bitmap) : Prop where
  length : b.data.length = b.width * b.height
  size : b.width * b.height < 2 ^ 31
  width : b.width < 2 ^ 31
  height : b.height < 2 ^ 31

/-- The pixel in column `x` and row `y`, none outside of the bitmap. -/
def Bitmap.pixel (b : Bitmap) (x y : Nat) : Option Nat :=
  if x < b.width ∧ y < b.height then b.data[y * b.width + x]? else none

/-- The place in column `px` and row `py` is in the rectangle with corner `x`, `y`. -/
def InRect (x y : Int) (w h : Nat) (px py : Nat) : Prop := x ≤ px ∧ (px : Int) < x + w ∧ y ≤ py ∧ (py : Int) < y + h

instance (x y : Int) (w h px py : Nat) : Decidable (InRect x y w h px py) := by unfold InRect; infer_instance

/-- `b'` is `b` with the pixels in a rectangle replaced by `f`, wherever the rectangle covers the
bitmap, and nothing else changed. -/
structure Drawn (b b' : Bitmap) (x y : Int) (w h : Nat) (f : Nat → Nat → Option Nat) : Prop where
  width : b'.width = b.width
  height : b'.height = b.height
  ok : b'.OK
  pixel : ∀ px py, px < b.width → py < b.height → b'.pixel px py = if InRect x y w h px py then f px py else b.pixel px py

end RichText
