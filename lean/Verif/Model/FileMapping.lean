import Verif.Model.FontRegistry
/-!
Mapping font files, src/file_mapping.cpp for the three platforms, and who owns the mappings:
the faces of the registry (src/font_registry.cpp:29-52, 562-577, 634-638).  Addresses and
handles are numbers.
-/
namespace RichText

/-- What the operating system has given out. -/
inductive Res where
  /-- a file descriptor, a file handle or a `FILE*` -/
  | file (h : Nat)
  /-- the handle of a file mapping object (Windows) -/
  | section (h : Nat)
  /-- mapped memory: address and length -/
  | view (address length : Nat)
  /-- a block from `malloc` or `new` -/
  | block (address : Nat)
deriving Repr, DecidableEq

/-- The resources in use. -/
abbrev Os := List Res

/-- Give a resource back.  Giving back what is not in use is an error of the program. -/
def Os.release (r : Res) (os : Os) : Option Os := if r ∈ os then some (os.erase r) else none

/-- What `FileMapping::handle` holds: nothing, a file descriptor, or the address of a `FileData`,
here with the two handles in it, which nothing changes (src/file_mapping.cpp:22-25). -/
inductive MapHandle where
  | null
  | fd (fd : Nat)
  | data (address file section' : Nat)
deriving Repr, DecidableEq

/-- `FileMapping`, src/file_mapping.hpp:11-15. -/
structure FileMapping where
  mapping : Option Nat
  size : Nat
  handle : MapHandle
deriving Repr, DecidableEq

/-- `FileMapping{}`. -/
def FileMapping.none : FileMapping := ⟨.none, 0, .null⟩

/-- `FileMappingFunctions`, src/file_mapping.hpp:17-20; `ρ` is what the operating system
answers to the calls of one mapping. -/
structure FileFuncs (ρ : Type) where
  map : ρ → Os → Os × FileMapping
  unmap : FileMapping → Os → Option Os

/-! ### Linux -/

/-- Answers of `open`, `fstat` and `mmap`. -/
structure LinuxReply where
  fd : Option Nat
  size : Option Nat
  address : Option Nat
deriving Repr, DecidableEq

/-- `map_file_default`, src/file_mapping.cpp:81-103. -/
def linuxMap (r : LinuxReply) (os : Os) : Os × FileMapping :=
  match r.fd with
  | .none => (os, .none)
  | some fd =>
    let os := .file fd :: os
    match r.size with
    | .none => (os, .none)
    | some size =>
      match r.address with
      | .none => (os, .none)
      | some a => (.view a size :: os, ⟨some a, size, .fd fd⟩)

/-- `unmap_file_default`, src/file_mapping.cpp:105-111.  A handle of another kind is no
file descriptor. -/
def linuxUnmap (m : FileMapping) (os : Os) : Option Os :=
  (os.release (.view (m.mapping.getD 0) m.size)).bind fun os =>
  match m.handle with
  | .fd fd => os.release (.file fd)
  | _ => .none

def linux : FileFuncs LinuxReply := ⟨linuxMap, linuxUnmap⟩

/-! ### Windows -/

/-- Answers of `CreateFileW`, `CreateFileMappingW` (null if it fails), `MapViewOfFile`,
`GetFileSize`, and the address of the `FileData`. -/
structure WindowsReply where
  file : Option Nat
  «section» : Option Nat
  address : Option Nat
  size : Nat
  data : Nat
deriving Repr, DecidableEq

/-- `CloseHandle`; on a null handle it fails and does nothing. -/
def closeSection (h : Option Nat) (os : Os) : Os :=
  match h with
  | .none => os
  | some h => (os.release (.section h)).getD os

/-- `map_file_default`, src/file_mapping.cpp:29-58.  The test in line 43 is against
`INVALID_HANDLE_VALUE` and never true, but `MapViewOfFile` fails for a null handle. -/
def windowsMap (r : WindowsReply) (os : Os) : Os × FileMapping :=
  match r.file with
  | .none => (os, .none)
  | some f =>
    let os := .file f :: os
    let os := match r.section with
      | .none => os
      | some s => .section s :: os
    match r.section, r.address with
    | some s, some a => (.block r.data :: .view a r.size :: os, ⟨some a, r.size, .data r.data f s⟩)
    | _, _ => (closeSection r.section ((Os.release (.file f) os).getD os), .none)

/-- `unmap_file_default`, src/file_mapping.cpp:60-68. -/
def windowsUnmap (m : FileMapping) (os : Os) : Option Os :=
  match m.handle with
  | .data d f s =>
    (os.release (.view (m.mapping.getD 0) m.size)).bind fun os =>
    (os.release (.section s)).bind fun os =>
    (os.release (.file f)).bind fun os => os.release (.block d)
  | _ => .none

def windows : FileFuncs WindowsReply := ⟨windowsMap, windowsUnmap⟩

/-! ### Elsewhere -/

/-- Answers of `fopen`, `ftell` and `malloc`. -/
structure PortableReply where
  file : Option Nat
  size : Nat
  block : Option Nat
deriving Repr, DecidableEq

/-- `map_file_default`, src/file_mapping.cpp:120-142. -/
def portableMap (r : PortableReply) (os : Os) : Os × FileMapping :=
  match r.file with
  | .none => (os, .none)
  | some f =>
    let os := .file f :: os
    match r.block with
    | .none => ((Os.release (.file f) os).getD os, .none)
    | some a =>
      let os := .block a :: os
      ((Os.release (.file f) os).getD os, ⟨some a, r.size, .null⟩)

/-- `unmap_file_default`, src/file_mapping.cpp:144-146. -/
def portableUnmap (m : FileMapping) (os : Os) : Option Os := os.release (.block (m.mapping.getD 0))

def portable : FileFuncs PortableReply := ⟨portableMap, portableUnmap⟩

/-! ### The faces -/

/-- `FaceData`, src/font_registry.cpp:29-52. -/
structure FaceObj where
  name : String := ""
  mapping : FileMapping := .none
deriving Repr, DecidableEq

/-- The move assignment, src/font_registry.cpp:42-46: both objects afterwards. -/
def FaceObj.assign (this other : FaceObj) : FaceObj × FaceObj := (⟨other.name, other.mapping⟩, ⟨this.name, this.mapping⟩)

/-- The move constructor, src/font_registry.cpp:38-40. -/
def FaceObj.move (other : FaceObj) : FaceObj × FaceObj := FaceObj.assign {} other

/-- The destructor, src/font_registry.cpp:634-638. -/
def FaceObj.destroy {ρ : Type} (f : FileFuncs ρ) (o : FaceObj) (os : Os) : Option Os :=
  if o.mapping.mapping.isSome then f.unmap o.mapping os else some os

/-- A `std::vector<FaceData>`. -/
structure FaceVec where
  capacity : Nat := 0
  objs : List FaceObj := []

/-- Moving all objects to a new array, destroying those moved from. -/
def relocate {ρ : Type} (f : FileFuncs ρ) : List FaceObj → Os → Option (List FaceObj × Os)
  | [], os => some ([], os)
  | o :: t, os =>
    let m := o.move
    (m.2.destroy f os).bind fun os =>
    (relocate f t os).map fun r => (m.1 :: r.1, r.2)

/-- `emplace_back`: in place, or in a new array of `newCapacity`. -/
def FaceVec.emplaceBack {ρ : Type} (f : FileFuncs ρ) (newCapacity : Nat) (o : FaceObj) (v : FaceVec) (os : Os) :
    Option (FaceVec × Os) :=
  if v.objs.length < v.capacity then some ({ v with objs := v.objs ++ [o] }, os)
  else (relocate f v.objs os).map fun r => (⟨newCapacity, r.1 ++ [o]⟩, r.2)

/-- The destructor of the vector. -/
def destroyAll {ρ : Type} (f : FileFuncs ρ) : List FaceObj → Os → Option Os
  | [], os => some os
  | o :: t, os => (o.destroy f os).bind fun os => destroyAll f t os

/-- `g_faces`, the names in `g_facesByName` and `g_fileFuncs`, src/font_registry.cpp:173-182,
and the operating system. -/
structure FaceStore (ρ : Type) where
  faces : FaceVec
  names : List String
  funcs : FileFuncs ρ
  os : Os

/-- What is done with the faces: registering one (`get_or_add_face`), with the answers of the
operating system and the capacity a vector that grows takes; `set_file_mapping_functions`. -/
inductive FaceOp (ρ : Type) where
  | add (name : String) (reply : ρ) (newCapacity : Nat)
  | setFuncs (f : FileFuncs ρ)

/-- src/font_registry.cpp:405-407 and 562-577. -/
def FaceStore.step {ρ : Type} (s : FaceStore ρ) : FaceOp ρ → Option (FaceStore ρ)
  | .setFuncs f => some { s with funcs := f }
  | .add name reply newCapacity =>
    if name ∈ s.names then some s
    else
      let r := s.funcs.map reply s.os
      (s.faces.emplaceBack s.funcs newCapacity ⟨name, r.2⟩ r.1).map fun x =>
        { s with names := name :: s.names, faces := x.1, os := x.2 }

def FaceStore.run {ρ : Type} : List (FaceOp ρ) → FaceStore ρ → Option (FaceStore ρ)
  | [], s => some s
  | o :: t, s => (s.step o).bind fun s => FaceStore.run t s

/-- The end of the program. -/
def FaceStore.exit {ρ : Type} (s : FaceStore ρ) : Option Os := destroyAll s.funcs s.faces.objs s.os

end RichText
