/-!
The font instances the LayoutEx builder of the tests makes.  test/build_layout_info_lx.cpp:94-124, 132-190, 274.

A pointer to an element of the vector of `LEMultiScript`s is the block of memory the vector had and an index; it is of no use once the
vector has another block or fewer elements.  A pointer to a `LESingleScript` is an address; using or deleting one that is not allocated is
`none`.  Fonts are values of any type.
-/
namespace RichText

variable {φ ψ : Type}

/-- `LEMultiScript`, test/build_layout_info_lx.cpp:94-124: its font and the addresses in its pool. -/
structure LxMulti (φ : Type) where
  font : φ
  pool : List Nat
deriving Repr, DecidableEq

/-- The vector `multiScriptFonts` and the `LESingleScript`s in memory, with their fonts. -/
structure LxFonts (φ ψ : Type) where
  /-- the next address that was not used before -/
  fresh : Nat
  /-- the memory block of the vector -/
  block : Nat
  capacity : Nat
  multis : List (LxMulti φ)
  singles : List (Nat × ψ)
deriving Repr, DecidableEq

namespace LxFonts

/-- The vector at the start, test/build_layout_info_lx.cpp:138. -/
def init : LxFonts φ ψ := ⟨0, 0, 0, [], []⟩

/-- `delete` of one `LESingleScript`. -/
def deleteSingle (s : LxFonts φ ψ) (a : Nat) : Option (LxFonts φ ψ) :=
  if s.singles.any (·.1 = a) then some { s with singles := s.singles.filter (·.1 ≠ a) } else none

/-- The destructors of a pool's pointers. -/
def deletePool : LxFonts φ ψ → List Nat → Option (LxFonts φ ψ)
  | s, [] => some s
  | s, a :: as => (s.deleteSingle a).bind fun s => deletePool s as

/-- The destructors of the elements. -/
def deleteMultis : LxFonts φ ψ → List (LxMulti φ) → Option (LxFonts φ ψ)
  | s, [] => some s
  | s, m :: ms => (s.deletePool m.pool).bind fun s => deleteMultis s ms

/-- `multiScriptFonts.clear()`, test/build_layout_info_lx.cpp:170; the destructor at the end does the same. -/
def clear (s : LxFonts φ ψ) : Option (LxFonts φ ψ) := (s.deleteMultis s.multis).map fun s => { s with multis := [] }

/-- A new memory block: the elements are moved there with their pools. -/
def grow (s : LxFonts φ ψ) (n : Nat) : LxFonts φ ψ := { s with fresh := s.fresh + 1, block := s.fresh, capacity := n }

/-- `multiScriptFonts.reserve(n)`, test/build_layout_info_lx.cpp:171. -/
def reserve (s : LxFonts φ ψ) (n : Nat) : LxFonts φ ψ := if s.capacity < n then s.grow n else s

/-- `multiScriptFonts.emplace_back(font)`, test/build_layout_info_lx.cpp:173-175. -/
def emplace (s : LxFonts φ ψ) (f : φ) : LxFonts φ ψ :=
  let s := if s.multis.length = s.capacity then s.grow (2 * s.capacity + 1) else s
  { s with multis := s.multis ++ [⟨f, []⟩] }

/-- `&multiScriptFonts[i]`, test/build_layout_info_lx.cpp:179-181. -/
def pointer (s : LxFonts φ ψ) (i : Nat) : Nat × Nat := (s.block, i)

/-- The fonts of a paragraph, test/build_layout_info_lx.cpp:170-181: the vector and the pointers given to LayoutEx. -/
def prepare (s : LxFonts φ ψ) (fonts : List φ) : Option (LxFonts φ ψ × List (Nat × Nat)) :=
  s.clear.map fun s =>
    let s := fonts.foldl emplace (s.reserve fonts.length)
    (s, (List.range fonts.length).map s.pointer)

/-- A use of a `LEMultiScript` by its pointer. -/
def deref (s : LxFonts φ ψ) (p : Nat × Nat) : Option (LxMulti φ) := if p.1 = s.block then s.multis[p.2]? else none

/-- `LEMultiScript::getSubFont`, test/build_layout_info_lx.cpp:99-105; `choose` is `FontRegistry::get_sub_font` for the text asked about.
The address of the new instance. -/
def getSubFont (s : LxFonts φ ψ) (p : Nat × Nat) (choose : φ → ψ) : Option (LxFonts φ ψ × Nat) :=
  (s.deref p).map fun m =>
    ({ s with
        fresh := s.fresh + 1
        singles := s.singles ++ [(s.fresh, choose m.font)]
        multis := s.multis.set p.2 { m with pool := m.pool ++ [s.fresh] } }, s.fresh)

/-- `pLEFont->get_font()`, test/build_layout_info_lx.cpp:89-91, 274-275. -/
def getFont (s : LxFonts φ ψ) (a : Nat) : Option ψ := (s.singles.find? (·.1 = a)).map (·.2)

/-- What LayoutEx asks for in a paragraph: the run whose font it asks, and the text. -/
abbrev Asks (φ ψ : Type) := List (Nat × (φ → ψ))

/-- The calls of `getSubFont` in a paragraph, with pointers from `prepare`. -/
def asks (ptrs : List (Nat × Nat)) : LxFonts φ ψ → Asks φ ψ → Option (LxFonts φ ψ × List Nat)
  | s, [] => some (s, [])
  | s, (run, choose) :: rest =>
    (ptrs[run]?).bind fun p => (s.getSubFont p choose).bind fun (s, a) => (asks ptrs s rest).map fun (s, as) => (s, a :: as)

/-- One paragraph: the fonts are prepared, LayoutEx asks, then the font of each run is looked up: `some` of all of them.  -/
def paragraph (s : LxFonts φ ψ) (fonts : List φ) (as : Asks φ ψ) : Option (LxFonts φ ψ × List ψ) :=
  (s.prepare fonts).bind fun (s, ptrs) => (s.asks ptrs as).bind fun (s, addrs) => (addrs.mapM s.getFont).map fun fs => (s, fs)

/-- The paragraphs of a text. -/
def paragraphs : LxFonts φ ψ → List (List φ × Asks φ ψ) → Option (LxFonts φ ψ × List (List ψ))
  | s, [] => some (s, [])
  | s, (fonts, as) :: rest =>
    (s.paragraph fonts as).bind fun (s, fs) => (paragraphs s rest).map fun (s, fss) => (s, fs :: fss)

/-- The whole function: at its end the vector is destroyed. -/
def run (ps : List (List φ × Asks φ ψ)) : Option (LxFonts φ ψ × List (List ψ)) :=
  (init.paragraphs ps).bind fun (s, fss) => s.clear.map fun s => (s, fss)

end LxFonts
end RichText
