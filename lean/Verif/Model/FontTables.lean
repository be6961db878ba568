import Verif.Model.HbLifetime
/-!
Font tables: the callback that reads one from a FreeType face and the font instance of the tests that asks HarfBuzz for one.
src/harfbuzz_font.cpp:222-247; test/build_layout_info_lx.cpp:28-39.

FreeType's reads and `hb_malloc` are parameters.  Memory is a list of buffers, `true` for those that are allocated; freeing one that is
not is `none`.
-/
namespace RichText

/-- `FT_Load_Sfnt_Table` for one face: with a length of zero it answers the length of the table, else it reads that many bytes. -/
structure SfntReader where
  length : Nat → Option Nat
  read : Nat → Nat → Option (List Nat)

/-- The `hb_blob_t` made by `face_reference_table`: the buffer it frees, its bytes. -/
structure BufferBlob where
  buffer : Nat
  bytes : List Nat
deriving Repr, DecidableEq

/-- `hb_free`. -/
def freeBuffer (mem : List Bool) (k : Nat) : Option (List Bool) :=
  if mem[k]? = some true then some (mem.set k false) else none

/-- `face_reference_table`, src/harfbuzz_font.cpp:222-247.  `mallocs`: whether `hb_malloc` succeeds.  The blob, if any, and the memory
behind. -/
def faceReferenceTable (r : SfntReader) (mallocs : Nat → Bool) (mem : List Bool) (tag : Nat) :
    Option (Option BufferBlob × List Bool) :=
  match r.length tag with
  | none => some (none, mem)
  | some n =>
    if mallocs n then
      let buffer := mem.length
      let mem := mem ++ [true]
      match r.read tag n with
      | none => (freeBuffer mem buffer).map fun mem => (none, mem)
      | some bytes => some (some ⟨buffer, bytes⟩, mem)
    else some (none, mem)

/-- `hb_blob_destroy` of the only reference: `hb_free` of the buffer, as given to `hb_blob_create`. -/
def BufferBlob.destroy (b : BufferBlob) (mem : List Bool) : Option (List Bool) := freeBuffer mem b.buffer

/-- Several calls, and the blobs they gave. -/
def referenceTables (r : SfntReader) : List Bool → List ((Nat → Bool) × Nat) → Option (List BufferBlob × List Bool)
  | mem, [] => some ([], mem)
  | mem, (mallocs, tag) :: rest =>
    (faceReferenceTable r mallocs mem tag).bind fun (b, mem) =>
      (referenceTables r mem rest).map fun (bs, mem) => (b.toList ++ bs, mem)

/-- The blobs are destroyed in the given order. -/
def destroyBlobs : List Bool → List BufferBlob → Option (List Bool)
  | mem, [] => some mem
  | mem, b :: bs => (b.destroy mem).bind fun mem => destroyBlobs mem bs

/-- A `hb_blob_t` for a part of the file, made by `hb_blob_create_sub_blob`: its references, where it begins and its length. -/
structure SubBlob where
  refs : Nat
  start : Nat
  length : Nat
deriving Repr, DecidableEq

/-- A font of the cache with the blobs made for its tables. -/
structure TableFont where
  obj : HbObj
  tables : List SubBlob
deriving Repr, DecidableEq

namespace TableFont

/-- `hb_face_reference_table` for a face over a file in memory, as HarfBuzz has it: the directory of the file says where a table is
(`find`), the new blob holds a reference to that of the file; for a table that is missing, empty or beyond the end, the empty blob (`none`),
which is not counted. -/
def referenceTable (f : TableFont) (size : Nat) (find : Nat → Option (Nat × Nat)) (tag : Nat) : TableFont × Option SubBlob :=
  match find tag with
  | none => (f, none)
  | some (start, length) =>
    if length = 0 ∨ size ≤ start then (f, none)
    else
      let b : SubBlob := ⟨1, start, min length (size - start)⟩
      ({ obj := { f.obj with blob := f.obj.blob + 1 }, tables := f.tables ++ [b] }, some b)

/-- `LESingleScript::getFontTable`, test/build_layout_info_lx.cpp:28-39.  The pointer, as an index into the file, with the length; the empty
blob has a null pointer and length 0. -/
def getFontTable (f : TableFont) (size : Nat) (find : Nat → Option (Nat × Nat)) (tag : Nat) :
    Option (TableFont × Option Nat × Nat) :=
  if f.obj.usable then
    match f.referenceTable size find tag with
    | (f, some b) => some (f, some b.start, b.length)
    | (f, none) => some (f, none, 0)
  else none

/-- Several calls, and their answers. -/
def getFontTables (size : Nat) (find : Nat → Option (Nat × Nat)) : TableFont → List Nat →
    Option (TableFont × List (Option Nat × Nat))
  | f, [] => some (f, [])
  | f, tag :: tags =>
    (f.getFontTable size find tag).bind fun (f, r) =>
      (getFontTables size find f tags).map fun (f, rs) => (f, r :: rs)

/-- `hb_blob_destroy` of the `n`-th table: the last reference gives back that to the file's blob. -/
def destroyTable (f : TableFont) (n : Nat) : Option TableFont :=
  (f.tables[n]?).bind fun b =>
    if b.refs = 0 then none
    else if b.refs = 1 then f.obj.blobDestroy.map fun o => ⟨o, f.tables.set n { b with refs := 0 }⟩
    else some ⟨f.obj, f.tables.set n { b with refs := b.refs - 1 }⟩

/-- Tables destroyed one after the other. -/
def destroyTables : TableFont → List Nat → Option TableFont
  | f, [] => some f
  | f, n :: ns => (f.destroyTable n).bind fun f => destroyTables f ns

end TableFont
end RichText
