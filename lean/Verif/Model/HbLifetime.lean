/-!
The objects behind a font: the FreeType face, HarfBuzz blob, face and font, and the data of the callbacks.
src/harfbuzz_font.cpp:121-129, 186-220; src/font_registry.cpp:70-153, 249-315.

Reference counts of HarfBuzz objects are as its manual says: `create` returns one reference, a face holds one to its blob, a font one to
its face, the last `destroy` frees.  A count of zero is a freed object; using or destroying a freed object is `none`.  One thread
(`t_fontContext` is thread local).
-/
namespace RichText

/-- The objects made by one call of `harfbuzz_font_create`. -/
structure HbObj where
  /-- the `FT_Face` is open -/
  ft : Bool
  /-- references to the `hb_blob_t` -/
  blob : Nat
  /-- references to the `hb_face_t` -/
  face : Nat
  /-- references to the `hb_font_t` -/
  font : Nat
  /-- the `HarfbuzzFontImpl` is allocated and belongs to the font -/
  impl : Bool
deriving Repr, DecidableEq

namespace HbObj

/-- After `FT_New_Memory_Face`, src/font_registry.cpp:287-290. -/
def opened : HbObj := ⟨true, 0, 0, 0, false⟩

/-- `hb_blob_create`. -/
def blobCreate (o : HbObj) : HbObj := { o with blob := 1 }

/-- `hb_blob_destroy`. -/
def blobDestroy (o : HbObj) : Option HbObj := if o.blob = 0 then none else some { o with blob := o.blob - 1 }

/-- `hb_face_create(blob, index)`: the face takes a reference to the blob. -/
def faceCreate (o : HbObj) : Option HbObj := if o.blob = 0 then none else some { o with blob := o.blob + 1, face := 1 }

/-- `hb_face_destroy`. -/
def faceDestroy (o : HbObj) : Option HbObj :=
  if o.face = 0 then none
  else if o.face = 1 then blobDestroy { o with face := 0 }
  else some { o with face := o.face - 1 }

/-- `hb_font_create(face)`: the font takes a reference to the face. -/
def fontCreate (o : HbObj) : Option HbObj := if o.face = 0 then none else some { o with face := o.face + 1, font := 1 }

/-- `harfbuzz_font_destroy`, src/harfbuzz_font.cpp:205-208, `delete`. -/
def implDelete (o : HbObj) : Option HbObj := if o.impl then some { o with impl := false } else none

/-- `hb_font_destroy`: the last one calls the destroy function of the callbacks' data and gives back the face. -/
def fontDestroy (o : HbObj) : Option HbObj :=
  if o.font = 0 then none
  else if o.font = 1 then (implDelete { o with font := 0 }).bind faceDestroy
  else some { o with font := o.font - 1 }

/-- `harfbuzz_face_create`, src/harfbuzz_font.cpp:186-203, for a face in memory (`stream->read` is null,
`FT_New_Memory_Face`). -/
def harfbuzzFaceCreate (o : HbObj) : Option HbObj := (faceCreate (blobCreate o)).bind blobDestroy

/-- `set_font_funcs`, src/harfbuzz_font.cpp:210-220. -/
def setFontFuncs (o : HbObj) : Option HbObj := if o.font = 0 then none else some { o with impl := true }

/-- What `harfbuzz_font_mark_changed`, the callbacks and `hb_shape` use. -/
def usable (o : HbObj) : Bool := o.ft && o.impl && decide (0 < o.font) && decide (0 < o.face) && decide (0 < o.blob)

/-- A use of the font. -/
def use (o : HbObj) : Option HbObj := if o.usable then some o else none

/-- `harfbuzz_font_create`, src/harfbuzz_font.cpp:121-129. -/
def harfbuzzFontCreate (o : HbObj) : Option HbObj :=
  (harfbuzzFaceCreate o).bind fun o => (fontCreate o).bind fun o => (setFontFuncs o).bind use

end HbObj

/-- `FontDataOwner`, src/font_registry.cpp:70-153: its two pointers, as indices of `HbObj`s. -/
structure LiveOwner where
  ft : Option Nat
  hb : Option Nat
deriving Repr, DecidableEq

/-- A thread: all the objects it made, its cache and its `FT_Library`. -/
structure FontHeap where
  objs : List HbObj
  cache : List (Nat × LiveOwner)
  lib : Bool
deriving Repr, DecidableEq

namespace FontHeap

/-- `FontContext()`, src/font_registry.cpp:157-159. -/
def init : FontHeap := ⟨[], [], true⟩

/-- An operation on an object. -/
def on (h : FontHeap) (n : Nat) (f : HbObj → Option HbObj) : Option FontHeap :=
  (h.objs[n]?).bind fun o => (f o).map fun o => { h with objs := h.objs.set n o }

/-- `FT_Done_Face`; the library has to be there. -/
def doneFace (h : FontHeap) (n : Nat) : Option FontHeap :=
  if h.lib then h.on n fun o => if o.ft then some { o with ft := false } else none else none

/-- `~FontDataOwner`, src/font_registry.cpp:106-114. -/
def destroyOwner (h : FontHeap) (w : LiveOwner) : Option FontHeap :=
  (match w.ft with
    | some n => h.doneFace n
    | none => some h).bind fun h =>
  match w.hb with
  | some n => h.on n HbObj.fontDestroy
  | none => some h

/-- `FontDataOwner(FontDataOwner&&)`, src/font_registry.cpp:89-101: the new owner and what is left of the old one. -/
def moveOwner (w : LiveOwner) : LiveOwner × LiveOwner := (⟨w.ft, w.hb⟩, ⟨none, none⟩)

/-- `cache.emplace(std::make_pair(handle, FontDataOwner(fontData, size)))`, src/font_registry.cpp:312: the owner is moved into the
pair and from the pair into the node, then the pair and the temporary are destroyed. -/
def emplace (h : FontHeap) (handle : Nat) (w : LiveOwner) : Option FontHeap :=
  let (pair, tmp) := moveOwner w
  let (node, pair) := moveOwner pair
  (FontHeap.destroyOwner { h with cache := (handle, node) :: h.cache } pair).bind fun h => h.destroyOwner tmp

/-- `FontRegistry::get_font_data`, src/font_registry.cpp:249-315, and a use of the result.  `opens`: `FT_New_Memory_Face`
succeeds. -/
def getFont (h : FontHeap) (handle : Nat) (opens : Bool) : Option FontHeap :=
  if h.lib then
    match h.cache.find? (·.1 = handle) with
    | some (_, w) => w.hb.bind fun n => h.on n HbObj.use
    | none =>
      if opens then
        (HbObj.harfbuzzFontCreate .opened).bind fun o =>
          (FontHeap.emplace { h with objs := h.objs ++ [o] } handle ⟨some h.objs.length, some h.objs.length⟩).bind fun h' =>
            h'.on h.objs.length HbObj.use
      else some h
  else none

/-- The owners of the cache are destroyed in the given order. -/
def destroyOwners : FontHeap → List LiveOwner → Option FontHeap
  | h, [] => some h
  | h, w :: ws => (h.destroyOwner w).bind fun h => destroyOwners h ws

/-- `~FontContext`, src/font_registry.cpp:161-164.  The order of the map's nodes is `order`. -/
def exit (h : FontHeap) (order : List (Nat × LiveOwner)) : Option FontHeap :=
  (destroyOwners h (order.map (·.2))).map fun h => { h with cache := [], lib := false }

/-- The calls of `get_font_data` a thread makes. -/
def gets : FontHeap → List (Nat × Bool) → Option FontHeap
  | h, [] => some h
  | h, (handle, opens) :: rest => (h.getFont handle opens).bind fun h => gets h rest

end FontHeap
end RichText
