import Verif.Model.FontRegistry
/-!
Model of `src/harfbuzz_font.cpp` as far as sizes and advances go, and of the part
of `src/font_registry.cpp` that keeps the HarfBuzz font and the FreeType face of a
cache entry together.

* FreeType is `FreeType`: the scales of a face and its advances at a size, where
  `none` is the size a face has before the first `FT_Request_Size`.
* HarfBuzz's `hb_cache_t` (a header of HarfBuzz, not in the repository) is
  `AdvCache`, any type with the three operations.
* All floats that occur are integers, so `float` is an integer with 24
  significant bits.
* Synthetic emboldening (`x_strength`, `y_strength`) is not modelled: nothing sets
  it.  `HAVE_FT_GET_TRANSFORM` is not defined.
-/
namespace RichText

/-- An integer rounded to `float`. -/
def floatInt (n : Int) : Int := n.sign * ((F32.ofNat n.natAbs).m * 2 ^ (F32.ofNat n.natAbs).e.toNat : Nat)

/-- Conversion of an integral `float` to `int`: undefined if it does not fit. -/
def floatToInt (n : Int) : Option Int := if -2147483648 ≤ n ∧ n < 2147483648 then some n else none

/-- `x_mult`, src/harfbuzz_font.cpp:339: the sign of the scale. -/
def scaleSign (scale : Int) : Int := if scale < 0 then -1 else 1

/-- `(int)(v * x_mult + (1<<9)) >> 10` for the absolute value of FreeType's
advance, src/harfbuzz_font.cpp:353-354. -/
def hAdvance (scale v : Int) : Option Int :=
  (floatToInt (floatInt (floatInt (v.natAbs : Int) * scaleSign scale + 512))).map (· / 1024)

/-- The result of `hb_ft_get_glyph_v_advance`, src/harfbuzz_font.cpp:376-407, if
FreeType has an advance. -/
def vAdvance (scale v : Int) : Option Int := (floatToInt (scaleSign scale * floatInt v)).map fun v => (-v + 512) / 1024

/-- A scale as given to `hb_font_set_scale`, src/harfbuzz_font.cpp:131-134: the
sum is computed in 64 bits, the result converted to `int`. -/
def hbScale (scale upem : Nat) : Int := BitVec.toInt (BitVec.ofNat 32 ((scale * upem + 32768) % 2 ^ 64 / 65536))

/-- `hb_cache_t`. -/
structure AdvCache (κ : Type) where
  clear : κ
  get : κ → Nat → Option Nat
  set : κ → Nat → Nat → κ

/-- FreeType: `units_per_EM`, `metrics.x_scale` and `y_scale`, `FT_Get_Advance`
(0 if it fails) of a file at a size. -/
structure FreeType where
  upem : Nat → Nat
  xScale : Nat → Option Nat → Nat
  yScale : Nat → Option Nat → Nat
  advance : Nat → Option Nat → Nat → Int

/-- The state of a HarfBuzz font. -/
structure HbFont (κ : Type) where
  scaleX : Int
  scaleY : Int
  cache : κ
deriving Repr, DecidableEq

/-- `harfbuzz_font_mark_changed`, src/harfbuzz_font.cpp:127-140, for a FreeType
face at a size. -/
def markChanged {κ : Type} (C : AdvCache κ) (F : FreeType) (file : Nat) (height : Option Nat) : HbFont κ :=
  ⟨hbScale (F.xScale file height) (F.upem file), hbScale (F.yScale file height) (F.upem file), C.clear⟩

/-- The loop of `hb_ft_get_glyph_h_advances`, src/harfbuzz_font.cpp:342-361: the
advances and the font afterwards.  `unsigned` and `int` have 32 bits. -/
def hAdvances {κ : Type} (C : AdvCache κ) (F : FreeType) (file : Nat) (height : Option Nat) :
    List Nat → HbFont κ → Option (List Int × HbFont κ)
  | [], h => some ([], h)
  | g :: gs, h =>
    match C.get h.cache g with
    | some cv => (hAdvances C F file height gs h).map fun r => (BitVec.toInt (BitVec.ofNat 32 cv) :: r.1, r.2)
    | none =>
      match hAdvance h.scaleX (F.advance file height g) with
      | none => none
      | some v =>
        (hAdvances C F file height gs { h with cache := C.set h.cache g (BitVec.ofInt 32 v).toNat }).map
          fun r => (v :: r.1, r.2)

/-- A cache entry with its HarfBuzz font. -/
structure HbOwner (κ : Type) where
  ft : FontOwner
  hb : HbFont κ
deriving Repr, DecidableEq

/-- A thread with its HarfBuzz fonts. -/
structure HbThread (κ : Type) where
  cache : List (BitVec 16 × HbOwner κ)
  locks : List LockOp
deriving Repr, DecidableEq

/-- At thread start. -/
def HbThread.init {κ : Type} : HbThread κ := ⟨[], []⟩

/-- Forget the HarfBuzz fonts. -/
def HbThread.plain {κ : Type} (t : HbThread κ) : FontThread := ⟨t.cache.map fun x => (x.1, x.2.ft), t.locks⟩

/-- `FontDataOwner::resize`, src/font_registry.cpp:137-150. -/
def HbOwner.resize {κ : Type} (C : AdvCache κ) (F : FreeType) (o : HbOwner κ) (newSize : Nat) : HbOwner κ :=
  if o.ft.size = newSize then o
  else ⟨{ o.ft with size := newSize, height := newSize }, markChanged C F o.ft.file (some newSize)⟩

/-- A face loaded from a file, src/font_registry.cpp:292-312: the HarfBuzz font is
made before the size is set; the width of the blank is asked for afterwards. -/
def hbLoad {κ : Type} (C : AdvCache κ) (F : FreeType) (lib : FontLib) (file eff : Nat) : Option (HbOwner κ) :=
  match hAdvances C F file (some eff) [lib.spaceGlyph file] (markChanged C F file none) with
  | some ([a], h) => some ⟨{ loadOwner lib file eff with spaceAdvance := a }, h⟩
  | _ => none

/-- Replace the value of a key. -/
def hbSetKey {κ : Type} (k : BitVec 16) (o : HbOwner κ) (c : List (BitVec 16 × HbOwner κ)) : List (BitVec 16 × HbOwner κ) :=
  c.map fun x => if x.1 = k then (k, o) else x

/-- `get_font_data`, src/font_registry.cpp:249-315. -/
def hbGetFontData {κ : Type} (C : AdvCache κ) (F : FreeType) (lib : FontLib) (r : Registry) (t : HbThread κ) (q : FontRequest) :
    Option (HbThread κ × Option FontDataInfo) :=
  match q.effective with
  | none => none
  | some eff =>
    match t.cache.lookup q.face.handle with
    | some o =>
      some ({ t with cache := hbSetKey q.face.handle (o.resize C F eff) t.cache }, some ((o.resize C F eff).ft.data q))
    | none =>
      match r.faces[q.face.handle.toNat]? with
      | none => none
      | some fd =>
        match fd.file with
        | none => some ({ t with locks := t.locks ++ [.lockShared, .unlockShared] }, none)
        | some file =>
          if lib.newFace file && lib.hbCreate file then
            (hbLoad C F lib file eff).map fun o =>
              (⟨t.cache ++ [(q.face.handle, o)], t.locks ++ [.lockShared, .unlockShared]⟩, some (o.ft.data q))
          else some ({ t with locks := t.locks ++ [.lockShared, .unlockShared] }, none)

/-- `hb_font_get_glyph_h_advances` on the font of a cache entry (HarfBuzz while
shaping, or `FontData::get_glyph_advance_x`, src/font_data.cpp:83-85). -/
def HbThread.advances {κ : Type} (C : AdvCache κ) (F : FreeType) (t : HbThread κ) (k : BitVec 16) (gs : List Nat) :
    Option (HbThread κ × List Int) :=
  match t.cache.lookup k with
  | none => none
  | some o =>
    (hAdvances C F o.ft.file (some o.ft.height) gs o.hb).map fun r =>
      ({ t with cache := hbSetKey k { o with hb := r.2 } t.cache }, r.1)

/-- The cache as HarfBuzz has it, `hb_cache_t<16, 24, 8, false>`: 256 words of 32
bits, which hold the upper eight bits of a 16-bit glyph index and 24 bits of
value; all ones is an empty word.  Only used to show that there is a cache
meeting the contract. -/
def hbCache : AdvCache (List Nat) where
  clear := List.replicate 256 0xffffffff
  get c k :=
    let w := c.getD (k % 256) 0xffffffff
    if w = 0xffffffff ∨ w / 2 ^ 24 ≠ k / 256 then none else some (w % 2 ^ 24)
  set c k v := if k < 2 ^ 16 ∧ v < 2 ^ 24 then c.set (k % 256) (k / 256 * 2 ^ 24 + v) else c

end RichText
