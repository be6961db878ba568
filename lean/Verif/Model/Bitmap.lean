import Verif.Model.SmallCaps
/-!
The software bitmap of the sample, sample/bitmap.cpp.

Coordinates are `int32_t`, sizes `uint32_t`; mixed arithmetic is done in
`uint32_t` and wraps (`asUInt32`).  Writes and reads outside of the array are
undefined (`none`); computing an address that is not accessed is not.
Pixels are the 32-bit words of `Color::to_argb` (Model/Color).
-/
namespace RichText

/-- `Bitmap`, sample/bitmap.hpp:35-38. -/
structure Bitmap where
  width : Nat
  height : Nat
  data : List Nat
deriving Repr, DecidableEq

/-- Store `vals` at `p` and behind: `std::fill_n` and `std::memcpy` as far as the destination is
concerned. -/
def writeAt (data : List Nat) (p : Nat) (vals : List Nat) : Option (List Nat) :=
  if vals = [] then some data
  else if p + vals.length ≤ data.length then some (data.take p ++ vals ++ data.drop (p + vals.length))
  else none

/-- The loop over rows of `fill_rect`, sample/bitmap.cpp:35-38, for `n` rows. -/
def fillRows (width stride value : Nat) : Nat → Nat → List Nat → Option (List Nat)
  | 0, _, data => some data
  | n + 1, p, data =>
    (writeAt data p (List.replicate width value)).bind fun d => fillRows width stride value n (p + stride) d

/-- `fill_rect`, sample/bitmap.cpp:26-39. -/
def Bitmap.fillRect (b : Bitmap) (x y : Int) (width height value : Nat) : Option Bitmap :=
  let x := (max 0 x).toNat
  let y := (max 0 y).toNat
  let p := asUInt32 (y * b.width + x)
  let w := min width (asUInt32 (b.width - x))
  let l := min (asUInt32 (y + height)) b.height
  (fillRows w b.width value (l - y) p b.data).map fun d => { b with data := d }

/-- `std::memcpy` of `n` words from `q` of `src` to `p` of `data`. -/
def copyAt (data : List Nat) (p : Nat) (src : List Nat) (q n : Nat) : Option (List Nat) :=
  if n = 0 ∨ q + n ≤ src.length then writeAt data p ((src.drop q).take n) else none

/-- The loop over rows of `blit`, sample/bitmap.cpp:49-53. -/
def copyRows (src : List Nat) (width srcStride stride : Nat) : Nat → Nat → Nat → List Nat → Option (List Nat)
  | 0, _, _, data => some data
  | n + 1, p, q, data =>
    (copyAt data p src q width).bind fun d => copyRows src width srcStride stride n (p + stride) (q + srcStride) d

/-- `blit`, sample/bitmap.cpp:41-54. -/
def Bitmap.blit (b src : Bitmap) (x y : Int) : Option Bitmap :=
  let x := (max 0 x).toNat
  let y := (max 0 y).toNat
  let w := min src.width (asUInt32 (b.width - x))
  let p := asUInt32 (y * b.width + x)
  let l := min (asUInt32 (y + src.height)) b.height
  (copyRows src.data w src.width b.width (l - y) p 0 b.data).map fun d => { b with data := d }

/-- `get_pixel`, sample/bitmap.cpp:80-82, without the conversion to a colour. -/
def pixelAt (data : List Nat) (width : Nat) (x y : Int) : Option Nat :=
  data[asUInt32 (asUInt32 y * width + asUInt32 x)]?

/-- `set_pixel`, sample/bitmap.cpp:76-78, without the conversion from a colour. -/
def setPixelAt (data : List Nat) (width : Nat) (x y : Int) (v : Nat) : Option (List Nat) :=
  if asUInt32 (asUInt32 y * width + asUInt32 x) < data.length then some (data.set (asUInt32 (asUInt32 y * width + asUInt32 x)) v)
  else none

/-- The inner loop of `blit_alpha`, sample/bitmap.cpp:63-73, for `n` columns from `ix`; `op` is the
new pixel from those of source and destination, lines 64-72. -/
def blendCols (op : Nat → Nat → Option Nat) (src : Bitmap) (width : Nat) (x y iy : Int) :
    Nat → Int → List Nat → Option (List Nat)
  | 0, _, data => some data
  | n + 1, ix, data =>
    (pixelAt src.data src.width (ix - x) (iy - y)).bind fun s =>
    (pixelAt data width ix iy).bind fun t =>
    (op s t).bind fun v =>
    (setPixelAt data width ix iy v).bind fun d => blendCols op src width x y iy n (ix + 1) d

/-- The outer loop of `blit_alpha`, sample/bitmap.cpp:62-74, for `n` rows from `iy`. -/
def blendRows (op : Nat → Nat → Option Nat) (src : Bitmap) (width : Nat) (x y startX : Int) (cols : Nat) :
    Nat → Int → List Nat → Option (List Nat)
  | 0, _, data => some data
  | n + 1, iy, data =>
    (blendCols op src width x y iy cols startX data).bind fun d => blendRows op src width x y startX cols n (iy + 1) d

/-- `static_cast<int32_t>` of a `uint32_t`. -/
def toInt32 (n : Nat) : Int := if n < 2147483648 then n else n - 4294967296

/-- Signed addition; overflow is undefined. -/
def addInt32 (a b : Int) : Option Int := if -2147483648 ≤ a + b ∧ a + b < 2147483648 then some (a + b) else none

/-- `blit_alpha`, sample/bitmap.cpp:56-74. -/
def Bitmap.blitAlpha (op : Nat → Nat → Option Nat) (b src : Bitmap) (x y : Int) : Option Bitmap :=
  (addInt32 x (toInt32 src.width)).bind fun ex =>
  (addInt32 y (toInt32 src.height)).bind fun ey =>
  let startX := max 0 x
  let startY := max 0 y
  let endX := min ex (toInt32 b.width)
  let endY := min ey (toInt32 b.height)
  (blendRows op src b.width x y startX (endX - startX).toNat (endY - startY).toNat startY b.data).map fun d =>
    { b with data := d }

/-- A colour with exact channels. -/
structure RatColor where
  r : Rat
  g : Rat
  b : Rat
  a : Rat
deriving DecidableEq

/-- `Color::blend`, src/color.hpp:53-55, in exact arithmetic. -/
def RatColor.blend (src dst : RatColor) : RatColor :=
  ⟨src.r * src.a + dst.r * (1 - src.a), src.g * src.a + dst.g * (1 - src.a), src.b * src.a + dst.b * (1 - src.a),
    src.a * src.a + dst.a * (1 - src.a)⟩

end RichText
