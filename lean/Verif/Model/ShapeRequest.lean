import Verif.Model.Bytes
import Verif.Model.Font
import Verif.Model.SmallCaps
/-!
What HarfBuzz is asked to shape: the first half of `shape_logical_run`
(src/layout_builder.cpp:377-427).

* The buffer is modelled by the bytes it is filled from: HarfBuzz decodes them, the cluster of
  a character is the index of its first byte; of the text before and behind it takes at most
  five characters on each side.  Decoding is not modelled.
* Pointers into the text are indices of the whole text.  A call that would read outside of the
  text it is given has no result (`none`).
* `hb_script_from_string (uscript_getShortName script)` is represented by the script, the language
  is the one of the default locale and the same for all calls.
-/
namespace RichText

/-- `hb_direction_t`. -/
inductive HbDirection
  | ltr | rtl | ttb | btt
deriving Repr, DecidableEq

/-- `hb_feature_t`: applies to the clusters from `start` up to, not including, `stop`. -/
structure HbFeature where
  tag : List UInt8
  value : Nat
  start : Nat
  stop : Nat
deriving Repr, DecidableEq

/-- An `hb_buffer_t` before it is shaped. -/
structure HbBuffer where
  script : Int
  direction : HbDirection
  /-- `HB_BUFFER_FLAG_BOT`, `HB_BUFFER_FLAG_EOT` -/
  bot : Bool
  eot : Bool
  /-- text before the contents -/
  before : List UInt8 := []
  /-- contents: bytes with their index -/
  text : List (UInt8 × Nat) := []
  /-- text behind the contents -/
  after : List UInt8 := []
deriving Repr, DecidableEq

/-- `hb_buffer_add_utf8(buffer, text, textLength, itemOffset, itemLength)` (hb-buffer.cc,
`hb_buffer_add_utf`), where `text` points to index `p` of `mem`: the text before is taken over
only into an empty buffer and if there is some; the text behind always. -/
def HbBuffer.addUtf8 (b : HbBuffer) (mem : List UInt8) (p textLength itemOffset itemLength : Nat) : Option HbBuffer :=
  let t := (mem.drop p).take textLength
  if p + textLength ≤ mem.length ∧ itemOffset + itemLength ≤ textLength then
    some { b with
      before := if b.text.isEmpty && decide (0 < itemOffset) then t.take itemOffset else b.before
      text := b.text ++ ((t.drop itemOffset).take itemLength).zip (List.range' itemOffset itemLength)
      after := t.drop (itemOffset + itemLength) }
  else none

/-- `maybe_add_tag_runs`, src/layout_builder.cpp:688-699. -/
def maybeAddTagRuns (features : List HbFeature) (tag : List UInt8) (count : Nat) (needs synthesizing : Bool) :
    List HbFeature :=
  if !needs || synthesizing then features else features ++ [⟨tag, 1, 0, count⟩]

/-- The features of a run, src/layout_builder.cpp:412-416. -/
def shapeFeatures (font : SingleScriptFont) (count : Nat) : List HbFeature :=
  let f := maybeAddTagRuns [] b!"smcp" count font.smallcaps font.syntheticSmallCaps
  let f := maybeAddTagRuns f b!"subs" count font.subscript font.syntheticSubscript
  maybeAddTagRuns f b!"sups" count font.superscript font.syntheticSuperscript

/-- The direction, src/layout_builder.cpp:381-382. -/
def shapeDirection (vertical reversed : Bool) : HbDirection :=
  if vertical then (if reversed then .btt else .ttb) else (if reversed then .rtl else .ltr)

/-- Where a run is shaped: the whole text, start and length of its paragraph, and the conversion to
upper case of ICU (`CaseMap::utf8ToUpper`) with its record. -/
structure ShapeText where
  mem : List UInt8
  start : Nat
  length : Nat
  upper : Int → List UInt8 → List UInt8 × List Edit

/-- `shape_logical_run` up to the call of `hb_shape`, src/layout_builder.cpp:377-419: buffer and
features.  `offset` is relative to the paragraph. -/
def shapeRequest (t : ShapeText) (font : SingleScriptFont) (offset count : Nat) (script : Int) (reversed vertical : Bool) :
    Option (HbBuffer × List HbFeature) :=
  let b : HbBuffer :=
    { script := script, direction := shapeDirection vertical reversed, bot := decide (offset = 0),
      eot := decide (offset + count = t.length) }
  if font.syntheticSmallCaps then
    let u := (t.upper script ((t.mem.drop (t.start + offset)).take count)).1
    -- ICU reads the text of the run
    if t.mem.length < t.start + offset + count then none else (b.addUtf8 u 0 u.length 0 u.length).map fun b => (b, shapeFeatures font u.length)
  else
    (b.addUtf8 t.mem t.start t.length offset 0).bind fun b =>
    (b.addUtf8 t.mem (t.start + offset) (t.length - offset) 0 count).map fun b => (b, shapeFeatures font count)

/-- `shape_logical_run` up to the glyphs with their clusters, src/layout_builder.cpp:377-427.  `hb` is
`hb_shape`. -/
def shapeGlyphs (hb : SingleScriptFont → HbBuffer → List HbFeature → List HbGlyph) (t : ShapeText) (font : SingleScriptFont)
    (offset count : Nat) (script : Int) (reversed vertical : Bool) : Option (List HbGlyph) :=
  (shapeRequest t font offset count script reversed vertical).bind fun r =>
  let gs := hb font r.1 r.2
  if font.syntheticSmallCaps then
    remapCharIndices ((t.mem.drop (t.start + offset)).map UInt8.toNat)
      (t.upper script ((t.mem.drop (t.start + offset)).take count)).2 gs
  else some gs

end RichText
