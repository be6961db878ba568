import Verif.Model.LayoutBuilder
/-!
Mapping the clusters of synthesised small caps back to the text
(src/layout_builder.cpp:395-405, 425-427, 701-731).  The text of the run is
converted to upper case by ICU, which records the conversion as edits; HarfBuzz
shapes the upper case text, its clusters are indices of that text and are mapped
back.

Simplifications: the position of the `Edits::Iterator` is not modelled, as
`findSourceIndex` gives the same answer from every position.  Indices passed as
`int32_t` are non-negative, texts are shorter than 2^31 bytes.
-/
namespace RichText

/-- A span of `icu::Edits`: `oldLength` bytes of the source became `newLength` bytes. -/
structure Edit where
  oldLength : Nat
  newLength : Nat
deriving Repr, DecidableEq

/-- `Edits::Iterator::findSourceIndex`, called in src/layout_builder.cpp:703: source and
destination index of the span that contains the source index `i`; `s` and `d` are those of the
first span in the list. -/
def findSource : List Edit → Nat → Nat → Nat → Option (Nat × Nat)
  | [], _, _, _ => none
  | e :: t, s, d, i => if i < s + e.oldLength then some (s, d) else findSource t (s + e.oldLength) (d + e.newLength) i

/-- `U8_IS_TRAIL`, unicode/utf8.h. -/
def isTrail (b : Nat) : Bool := 0x80 ≤ b && b < 0xC0

/-- `uint32_t` value of an integer. -/
def asUInt32 (i : Int) : Nat := (i % 4294967296).toNat

/-- The loop that goes back to the start of a character, src/layout_builder.cpp:708-710.  A read
outside of the text is undefined. -/
def backToLead (text : List Nat) : Nat → Option Nat
  | 0 => (text[0]?).map fun _ => 0
  | i + 1 =>
    match text[i + 1]? with
    | none => none
    | some b => if isTrail b then backToLead text i else some (i + 1)

/-- `remap_char_index`, src/layout_builder.cpp:701-714; `text` is the paragraph from the start of
the run on. -/
def remapCharIndex (text : List Nat) (edits : List Edit) (cluster : Nat) : Option Nat :=
  match findSource edits 0 0 cluster with
  | none => some cluster
  | some (s, d) => backToLead text (asUInt32 ((s : Int) + ((cluster : Int) - d)))

/-- `remap_char_indices`, src/layout_builder.cpp:716-731.  Glyphs are independent of each other, so
that the order in which they are visited does not matter. -/
def remapCharIndices (text : List Nat) (edits : List Edit) : List HbGlyph → Option (List HbGlyph)
  | [] => some []
  | g :: t =>
    match remapCharIndex text edits g.cluster, remapCharIndices text edits t with
    | some c, some t' => some ({ g with cluster := c } :: t')
    | _, _ => none

end RichText
