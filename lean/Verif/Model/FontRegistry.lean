import Verif.Model.Font
import Verif.Model.FontSize
/-!
Model of `src/font_registry.cpp`: families, faces, the per-thread font cache,
choice of fonts for text.

* `none` is undefined behaviour or an exception (index out of range, script code
  outside the bitset).
* FreeType, HarfBuzz, file mapping and ICU's character properties are the fields
  of `FontLib`.  A mapped file is a number; a FreeType face is the file it was
  made from and the size it is set to.
* `std::unordered_map` is an association list without duplicate keys.
* Asserted conditions are not evaluated (release build).
-/
namespace RichText

/-- The libraries: `USCRIPT_CODE_LIMIT`; `pfnMapFile` (`none`: null);
`FT_New_Memory_Face` and `harfbuzz_font_create` succeed; strikeout position and
size of the OS/2 table; the glyph of the blank; `hb_font_get_glyph_h_advance` at
a size; `hb_font_get_nominal_glyph` finds a glyph; `u_getCombiningClass` is not
zero; `u_hasBinaryProperty(c, UCHAR_CHANGES_WHEN_UPPERCASED)`. -/
structure FontLib where
  codeLimit : Nat
  mapFile : String → Option Nat
  newFace : Nat → Bool
  hbCreate : Nat → Bool
  os2 : Nat → Option (Int × Int)
  spaceGlyph : Nat → Nat
  advance : Nat → Nat → Nat → Int
  hasGlyph : Nat → Nat → Bool
  combining : Nat → Bool
  changesUpper : Nat → Bool

/-! ### Registration data -/

/-- `FontFaceCreateInfo`, src/font_registry.hpp:11-16. -/
structure FaceInfo where
  name : String
  uri : String
  weight : BitVec 4
  style : FontStyle
deriving Repr, DecidableEq

/-- `FontFamilyCreateInfo`, src/font_registry.hpp:18-28; `faces` is `none` if
`pFaces` is null. -/
structure FamilyInfo where
  name : String
  scripts : List Int := []
  linked : List String := []
  fallback : List String := []
  faces : Option (List FaceInfo)
deriving Repr, DecidableEq

/-- `FontRegistryError`, src/font_registry.hpp:30-35. -/
inductive RegistryError where
  | none
  | alreadyLoaded
  | noFaces
  | invalidJson
deriving Repr, DecidableEq

/-- `FaceData`, src/font_registry.cpp:29-51. -/
structure FaceData where
  name : String
  file : Option Nat
deriving Repr, DecidableEq

/-- `FamilyData`, src/font_registry.cpp:54-68. -/
structure FamilyData where
  lookup : List (List FaceDataHandle)
  linked : List FamilyHandle
  fallback : List FamilyHandle
  scripts : List Bool
  initialized : Bool
deriving Repr, DecidableEq

/-- Numeric value of a style. -/
def FontStyle.index : FontStyle → Nat
  | .normal => 0
  | .italic => 1

/-- A family as added by `emplace_back()`: `WEIGHT_COUNT` is 9, `STYLE_COUNT` 2. -/
def FamilyData.empty (lib : FontLib) : FamilyData :=
  ⟨List.replicate 9 (List.replicate 2 {}), [], [], List.replicate lib.codeLimit false, false⟩

/-- `get_face_data_handle`, src/font_registry.cpp:61-63. -/
def FamilyData.face (f : FamilyData) (weight : Nat) (style : FontStyle) : Option FaceDataHandle :=
  match f.lookup[weight]? with
  | none => none
  | some row => row[style.index]?

/-- `has_script`, src/font_registry.cpp:65-67 (`test` throws outside the
bitset). -/
def FamilyData.hasScript (f : FamilyData) (script : Int) : Option Bool :=
  if 0 ≤ script then f.scripts[script.toNat]? else none

/-- The global variables, src/font_registry.cpp:173-177. -/
structure Registry where
  families : List FamilyData
  familyNames : List (String × FamilyHandle)
  faces : List FaceData
  faceNames : List (String × FaceDataHandle)
deriving Repr, DecidableEq

namespace Registry

/-- At program start. -/
def init : Registry := ⟨[], [], [], []⟩

/-- `get_or_add_family`, src/font_registry.cpp:550-560. -/
def getOrAddFamily (r : Registry) (lib : FontLib) (name : String) : Registry × FamilyHandle :=
  match r.familyNames.lookup name with
  | some h => (r, h)
  | none =>
    let h := BitVec.ofNat 16 r.families.length
    ({ r with familyNames := r.familyNames ++ [(name, h)], families := r.families ++ [.empty lib] }, h)

/-- `get_or_add_face`, src/font_registry.cpp:562-577. -/
def getOrAddFace (r : Registry) (lib : FontLib) (info : FaceInfo) : Registry × FaceDataHandle :=
  match r.faceNames.lookup info.name with
  | some h => (r, h)
  | none =>
    let h : FaceDataHandle := ⟨BitVec.ofNat 16 r.faces.length, info.weight, info.style⟩
    ({ r with faceNames := r.faceNames ++ [(info.name, h)], faces := r.faces ++ [⟨info.name, lib.mapFile info.uri⟩] }, h)

/-- Change the family with a handle; it must exist. -/
def modify (r : Registry) (h : FamilyHandle) (g : FamilyData → FamilyData) : Option Registry :=
  match r.families[h.toNat]? with
  | none => none
  | some f => some { r with families := r.families.set h.toNat (g f) }

/-- `get_family`, src/font_registry.cpp:203-211. -/
def getFamily (r : Registry) (name : String) : FamilyHandle :=
  match r.familyNames.lookup name with
  | some h => h
  | none => invalidFamily

/-- The script bits, src/font_registry.cpp:327-334. -/
def setScripts (codes : List Int) (s : List Bool) : Option (List Bool) :=
  match codes with
  | [] => some s
  | c :: codes => if 0 ≤ c ∧ c.toNat < s.length then setScripts codes (s.set c.toNat true) else none

/-- The script bits of a registration, src/font_registry.cpp:326-334: all if none
are given. -/
def scriptBits (codes : List Int) (s : List Bool) : Option (List Bool) :=
  match codes with
  | [] => some (s.map fun _ => true)
  | _ => setScripts codes s

/-- The loop over linked families, src/font_registry.cpp:339-342. -/
def addLinked (lib : FontLib) (h : FamilyHandle) : List String → Registry → Option Registry
  | [], r => some r
  | n :: ns, r =>
    let (r, l) := r.getOrAddFamily lib n
    match r.modify h fun f => { f with linked := f.linked ++ [l] } with
    | none => none
    | some r => addLinked lib h ns r

/-- The loop over fallback families, src/font_registry.cpp:347-350. -/
def addFallback (lib : FontLib) (h : FamilyHandle) : List String → Registry → Option Registry
  | [], r => some r
  | n :: ns, r =>
    let (r, l) := r.getOrAddFamily lib n
    match r.modify h fun f => { f with fallback := f.fallback ++ [l] } with
    | none => none
    | some r => addFallback lib h ns r

/-- Set a slot of the lookup table. -/
def setSlot (lookup : List (List FaceDataHandle)) (weight style : Nat) (h : FaceDataHandle) : List (List FaceDataHandle) :=
  match lookup[weight]? with
  | none => lookup
  | some row => lookup.set weight (row.set style h)

/-- The loop over faces, src/font_registry.cpp:362-374: registry, table and
default face. -/
def addFaces (lib : FontLib) : List FaceInfo → Registry → List (List FaceDataHandle) → FaceDataHandle →
    Option (Registry × List (List FaceDataHandle) × FaceDataHandle)
  | [], r, lookup, dflt => some (r, lookup, dflt)
  | i :: is, r, lookup, dflt =>
    if i.weight.toNat < lookup.length then
      let (r, face) := r.getOrAddFace lib i
      addFaces lib is r (setSlot lookup i.weight.toNat i.style.index face)
        (if face.valid && (!dflt.valid || (i.weight == 3#4 && i.style == .normal)) then face else dflt)
    else none

/-- Missing faces, src/font_registry.cpp:377-383. -/
def fillDefault (lookup : List (List FaceDataHandle)) (dflt : FaceDataHandle) : List (List FaceDataHandle) :=
  lookup.map fun row => row.map fun h => if h.valid then h else dflt

/-- The end of `register_family`, src/font_registry.cpp:352-386. -/
def registerFaces (lib : FontLib) (h : FamilyHandle) (faces : Option (List FaceInfo)) (r : Registry) :
    Option (Registry × RegistryError) :=
  match faces with
  | none =>
    (r.modify h fun f => { f with scripts := f.scripts.map fun _ => false, linked := [], fallback := [] }).map
      fun r => (r, .noFaces)
  | some is =>
    match r.families[h.toNat]? with
    | none => none
    | some f =>
      match addFaces lib is r f.lookup {} with
      | none => none
      | some (r, lookup, dflt) =>
        (r.modify h fun f => { f with lookup := fillDefault lookup dflt, initialized := true }).map fun r => (r, .none)

/-- `register_family` behind the check, src/font_registry.cpp:326-386. -/
def registerNew (lib : FontLib) (h : FamilyHandle) (info : FamilyInfo) (f : FamilyData) (r : Registry) :
    Option (Registry × RegistryError) :=
  match scriptBits info.scripts f.scripts with
  | none => none
  | some bits =>
    match r.modify h fun f => { f with scripts := bits } with
    | none => none
    | some r =>
      match addLinked lib h info.linked r with
      | none => none
      | some r =>
        match addFallback lib h info.fallback r with
        | none => none
        | some r => registerFaces lib h info.faces r

/-- `register_family`, src/font_registry.cpp:317-387. -/
def register (r : Registry) (lib : FontLib) (info : FamilyInfo) : Option (Registry × RegistryError) :=
  let (r, h) := r.getOrAddFamily lib info.name
  match r.families[h.toNat]? with
  | none => none
  | some f => if f.initialized then some (r, .alreadyLoaded) else registerNew lib h info f r

/-- `family_get_face_data_handle`, src/font_registry.cpp:427-429, and
`FontRegistry::get_face_data_handle`, src/font_registry.cpp:217-221. -/
def faceOf (r : Registry) (h : FamilyHandle) (weight : Nat) (style : FontStyle) : Option FaceDataHandle :=
  match r.families[h.toNat]? with
  | none => none
  | some f => f.face weight style

/-- The loop over linked families in `get_font_for_script`,
src/font_registry.cpp:585-591: the first initialised one with the script. -/
def linkedFor (r : Registry) (script : Int) : List FamilyHandle → Option (Option FamilyHandle)
  | [] => some none
  | l :: ls =>
    match r.families[l.toNat]? with
    | none => none
    | some f =>
      if f.initialized then
        match f.hasScript script with
        | none => none
        | some true => some (some l)
        | some false => linkedFor r script ls
      else linkedFor r script ls

/-- `get_font_for_script`, src/font_registry.cpp:579-595. -/
def fontForScript (r : Registry) (h : FamilyHandle) (weight : Nat) (style : FontStyle) (script : Int) : Option FaceDataHandle :=
  match r.families[h.toNat]? with
  | none => none
  | some f =>
    match f.hasScript script with
    | none => none
    | some true => r.faceOf h weight style
    | some false =>
      match r.linkedFor script f.linked with
      | none => none
      | some none => r.faceOf h weight style
      | some (some l) => r.faceOf l weight style

end Registry

/-! ### The per-thread cache -/

/-- Operations on the registry's `shared_mutex`. -/
inductive LockOp where
  | lockShared
  | unlockShared
  | lock
  | unlock
deriving Repr, DecidableEq

/-- Lock operations of `get_family`, src/font_registry.cpp:203-211, and
`get_face_data_handle`, src/font_registry.cpp:217-221. -/
def lookupLocks : List LockOp := [.lockShared, .unlockShared]

/-- Lock operations of `register_family`, src/font_registry.cpp:317-387: it calls
no function that uses the lock. -/
def registerLocks : List LockOp := [.lock, .unlock]

/-- `FontDataOwner`, src/font_registry.cpp:70-151: `file` and `height` are those
of the FreeType face, `size` is the member. -/
structure FontOwner where
  file : Nat
  height : Nat
  size : Nat
  strikePos : Int
  strikeThick : Int
  spaceGlyph : Nat
  spaceAdvance : Int
deriving Repr, DecidableEq

/-- What a thread has: `t_fontContext.cache` and the lock operations done so
far. -/
structure FontThread where
  cache : List (BitVec 16 × FontOwner)
  locks : List LockOp
deriving Repr, DecidableEq

/-- At thread start. -/
def FontThread.init : FontThread := ⟨[], []⟩

/-- Record lock operations. -/
def FontThread.log (t : FontThread) (ops : List LockOp) : FontThread := { t with locks := t.locks ++ ops }

/-- `FontData`, src/font_data.hpp:33-56; `key` stands for the FreeType face and
HarfBuzz font of a cache entry, `file` for the file they use. -/
structure FontDataInfo where
  key : BitVec 16
  file : Nat
  strikePos : Int
  strikeThick : Int
  srcWeight : BitVec 4
  dstWeight : BitVec 8
  srcStyle : FontStyle
  dstStyle : FontStyle
  smallCaps : Bool
  subscript : Bool
  superscript : Bool
  spaceGlyph : Nat
  spaceAdvance : Int
deriving Repr, DecidableEq

/-- A call of `get_font_data`. -/
structure FontRequest where
  face : FaceDataHandle
  size : Nat
  weight : BitVec 8
  style : FontStyle
  smallCaps : Bool := false
  subscript : Bool := false
  superscript : Bool := false
deriving Repr, DecidableEq

/-- The effective size of a request. -/
def FontRequest.effective (q : FontRequest) : Option Nat := effectiveSize q.size q.smallCaps (q.subscript || q.superscript)

/-- `FontDataOwner::get_font_data`, src/font_registry.cpp:116-135. -/
def FontOwner.data (o : FontOwner) (q : FontRequest) : FontDataInfo :=
  ⟨q.face.handle, o.file, o.strikePos, o.strikeThick, q.face.sourceWeight, q.weight, q.face.sourceStyle, q.style,
    q.smallCaps, q.subscript, q.superscript, o.spaceGlyph, o.spaceAdvance⟩

/-- `FontDataOwner::resize`, src/font_registry.cpp:137-150. -/
def FontOwner.resize (o : FontOwner) (newSize : Nat) : FontOwner :=
  if o.size = newSize then o else { o with size := newSize, height := newSize }

/-- Replace the value of a key. -/
def setKey (k : BitVec 16) (o : FontOwner) (c : List (BitVec 16 × FontOwner)) : List (BitVec 16 × FontOwner) :=
  c.map fun x => if x.1 = k then (k, o) else x

/-- A face loaded from a file, src/font_registry.cpp:284-312.  The moves into the
cache do not take `size` along (src/font_registry.cpp:89-101): it stays 0. -/
def loadOwner (lib : FontLib) (file eff : Nat) : FontOwner where
  file := file
  height := eff
  size := 0
  strikePos := match lib.os2 file with
    | some p => -p.1
    | none => 0
  strikeThick := match lib.os2 file with
    | some p => p.2
    | none => 0
  spaceGlyph := lib.spaceGlyph file
  spaceAdvance := lib.advance file eff (lib.spaceGlyph file)

/-- `get_font_data`, src/font_registry.cpp:249-315: the outer option is undefined
behaviour, the inner one `FontData{}`. -/
def getFontData (lib : FontLib) (r : Registry) (t : FontThread) (q : FontRequest) : Option (FontThread × Option FontDataInfo) :=
  match q.effective with
  | none => none
  | some eff =>
    match t.cache.lookup q.face.handle with
    | some o => some ({ t with cache := setKey q.face.handle (o.resize eff) t.cache }, some ((o.resize eff).data q))
    | none =>
      match r.faces[q.face.handle.toNat]? with
      | none => none
      | some fd =>
        match fd.file with
        | none => some (t.log [.lockShared, .unlockShared], none)
        | some file =>
          if lib.newFace file && lib.hbCreate file then
            some ({ cache := t.cache ++ [(q.face.handle, loadOwner lib file eff)],
                    locks := t.locks ++ [.lockShared, .unlockShared] }, some ((loadOwner lib file eff).data q))
          else some (t.log [.lockShared, .unlockShared], none)

/-- `FontData::has_codepoint`, src/font_data.cpp:70-73. -/
def FontDataInfo.has (lib : FontLib) (d : FontDataInfo) (c : Nat) : Bool := lib.hasGlyph d.file c

/-! ### Fonts for text -/

/-- The request made for a candidate face, src/font_registry.cpp:603-604,
619-620. -/
def plainRequest (font : Font) (face : FaceDataHandle) : FontRequest :=
  ⟨face, font.size.toNat, font.face.getWeight, font.face.getStyle, false, false, false⟩

/-- The loop over fallback families of `find_compatible_font`,
src/font_registry.cpp:613-629. -/
def findFallback (lib : FontLib) (r : Registry) (font : Font) (c : Nat) : List FamilyHandle → FontThread →
    Option (FontThread × Option (FaceDataHandle × FontDataInfo))
  | [], t => some (t, none)
  | h :: hs, t =>
    match r.families[h.toNat]? with
    | none => none
    | some f =>
      if f.initialized then
        match f.face font.face.getWeight.toNat font.face.getStyle with
        | none => none
        | some face =>
          match getFontData lib r t (plainRequest font face) with
          | none => none
          | some (t, none) => findFallback lib r font c hs t
          | some (t, some d) => if d.has lib c then some (t, some (face, d)) else findFallback lib r font c hs t
      else findFallback lib r font c hs t

/-- `find_compatible_font`, src/font_registry.cpp:597-632: the face found and the
font data left in `fontData`.  (The data left behind if none is found is not
used by the caller.) -/
def findCompatible (lib : FontLib) (r : Registry) (font : Font) (c : Nat) (base : FaceDataHandle)
    (fallback : List FamilyHandle) (t : FontThread) : Option (FontThread × Option (FaceDataHandle × FontDataInfo)) :=
  if base.valid then
    match getFontData lib r t (plainRequest font base) with
    | none => none
    | some (t, none) => some (t, none)
    | some (t, some d) => if d.has lib c then some (t, some (base, d)) else findFallback lib r font c fallback t
  else some (t, none)

/-- `calc_case_run_limit`, src/font_registry.cpp:440-466.  The text is the list
of its characters with their width; `idx` is the native index. -/
def caseRunLimit (lib : FontLib) (offset limit : Nat) : List (Nat × Nat) → Nat → Bool → Bool → Nat × Bool
  | [], _, upper, _ => (limit, upper)
  | (w, c) :: cs, idx, upper, known =>
    if lib.combining c then caseRunLimit lib offset limit cs (idx + w) upper known
    else
      let charUpper := !lib.changesUpper c
      let upper := if known then upper else charUpper
      if upper ≠ charUpper then (offset + idx, upper) else caseRunLimit lib offset limit cs (idx + w) upper true

/-- The first loop of `get_sub_font`, src/font_registry.cpp:499-510: the
characters behind the first one that can be drawn, their native index, the face
and its data. -/
def firstDrawable (lib : FontLib) (r : Registry) (font : Font) (base : FaceDataHandle) (fallback : List FamilyHandle) :
    List (Nat × Nat) → Nat → FontThread → Option (FontThread × Option (List (Nat × Nat) × Nat × FaceDataHandle × FontDataInfo))
  | [], _, t => some (t, none)
  | (w, c) :: cs, idx, t =>
    match findCompatible lib r font c base fallback t with
    | none => none
    | some (t, some (face, d)) => some (t, some (cs, idx + w, face, d))
    | some (t, none) => firstDrawable lib r font base fallback cs (idx + w) t

/-- The second loop, src/font_registry.cpp:533-544: native index of the first
character the font lacks. -/
def firstMissing (lib : FontLib) (d : FontDataInfo) : List (Nat × Nat) → Nat → Option Nat
  | [], _ => none
  | (w, c) :: cs, idx => if d.has lib c then firstMissing lib d cs (idx + w) else some idx

/-- `get_sub_font`, src/font_registry.cpp:468-548: the font and the new offset.
`cs` are the characters from `offset` to `limit`. -/
def getSubFont (lib : FontLib) (r : Registry) (t : FontThread) (font : Font) (cs : List (Nat × Nat)) (offset limit : Nat)
    (script : Int) (smallcaps subscript superscript : Bool) : Option (FontThread × SingleScriptFont × Nat) :=
  let t := t.log [.lockShared]
  let (limit, synth) :=
    if smallcaps then
      let (l, upper) := caseRunLimit lib offset limit cs 0 true false
      (l, !upper)
    else (limit, false)
  match r.fontForScript font.face.getFamily font.face.getWeight.toNat font.face.getStyle script with
  | none => none
  | some base =>
    match r.families[font.face.getFamily.toNat]? with
    | none => none
    | some f =>
      match firstDrawable lib r font base f.fallback cs 0 t with
      | none => none
      | some (t, found) =>
        let result : SingleScriptFont :=
          { face := base, size := font.size, weight := font.face.getWeight.truncate 4, style := font.face.getStyle,
            subscript := subscript, superscript := superscript, smallcaps := smallcaps,
            syntheticSubscript := subscript, syntheticSuperscript := superscript, syntheticSmallCaps := synth }
        match found with
        | none => some (t.log [.unlockShared], result, limit)
        | some (rest, idx, face, d) =>
          match firstMissing lib d rest idx with
          | some i => some (t.log [.unlockShared], { result with face := face }, offset + i)
          | none => some (t.log [.unlockShared], { result with face := face }, limit)

end RichText
