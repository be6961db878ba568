import Verif.Model.LayoutInfo
/-!
Model of `test/utf_conversion_util.hpp` and `test/convert_layout_info_utf8.cpp`: indices of UTF-16 text as indices of the UTF-8
form of the same text, and layouts with them.

* UTF-16 code units are natural numbers below 65536.
* `none` is undefined behaviour: a read outside of a text or of a vector.
* ICU's macros `U16_FWD_1` (`unicode/utf16.h`) and `U8_FWD_1` (`unicode/utf8.h`) are written out, with the tables
  `U8_LEAD3_T1_BITS` and `U8_LEAD4_T1_BITS` as the ranges they stand for.
-/
namespace RichText

/-- `U16_FWD_1(s, i, length)`. -/
def u16Fwd (s : List Nat) (i : Nat) : Option Nat :=
  match s[i]? with
  | none => none
  | some c =>
    if 0xD800 ≤ c ∧ c < 0xDC00 ∧ i + 1 ≠ s.length then
      match s[i + 1]? with
      | none => none
      | some t => some (if 0xDC00 ≤ t ∧ t < 0xE000 then i + 2 else i + 1)
    else some (i + 1)

/-- `U8_IS_TRAIL`. -/
def isTrail8 (b : UInt8) : Bool := 0x80 ≤ b && b < 0xC0

/-- `U8_IS_VALID_LEAD3_AND_T1`, for a lead byte from E0 to EF. -/
def validLead3 (b t : UInt8) : Bool :=
  if b = 0xE0 then 0xA0 ≤ t && t < 0xC0 else if b = 0xED then 0x80 ≤ t && t < 0xA0 else isTrail8 t

/-- `U8_IS_VALID_LEAD4_AND_T1`, for a lead byte from F0 to F4. -/
def validLead4 (b t : UInt8) : Bool :=
  if b = 0xF0 then 0x90 ≤ t && t < 0xC0 else if b = 0xF4 then 0x80 ≤ t && t < 0x90 else isTrail8 t

/-- `++(i) != (length) && U8_IS_TRAIL((s)[i])`, with the index afterwards. -/
def nextTrail8 (s : List UInt8) (i : Nat) : Option (Bool × Nat) :=
  if i + 1 ≠ s.length then (s[i + 1]?).map fun t => (isTrail8 t, i + 1) else some (false, i + 1)

/-- `U8_FWD_1(s, i, length)`. -/
def u8Fwd (s : List UInt8) (i : Nat) : Option Nat :=
  match s[i]? with
  | none => none
  | some b =>
    if 0xC2 ≤ b ∧ b ≤ 0xF4 ∧ i + 1 ≠ s.length then
      match s[i + 1]? with
      | none => none
      | some t1 =>
        if 0xE0 ≤ b ∧ b < 0xF0 then
          if validLead3 b t1 then
            (nextTrail8 s (i + 1)).map fun (ok, i) => if ok then i + 1 else i
          else some (i + 1)
        else if b < 0xE0 then some (if isTrail8 t1 then i + 2 else i + 1)
        else if validLead4 b t1 then
          (nextTrail8 s (i + 1)).bind fun (ok, i) =>
            if ok then (nextTrail8 s i).map fun (ok, i) => if ok then i + 1 else i else some i
        else some (i + 1)
    else some (i + 1)

/-- The loop `while (srcCounter < targetIndex)` of both functions, test/utf_conversion_util.hpp:9-12, 29-32: both counters
afterwards.  The source counter grows, so that the difference to the target bounds the steps. -/
def walkBoth (srcFwd dstFwd : Nat → Option Nat) (target : Nat) : Nat → Nat → Nat → Option (Nat × Nat)
  | 0, src, dst => some (src, dst)
  | n + 1, src, dst =>
    if src < target then
      match srcFwd src, dstFwd dst with
      | some src, some dst => walkBoth srcFwd dstFwd target n src dst
      | _, _ => none
    else some (src, dst)

/-- `utf16_index_to_utf8` with counters, test/utf_conversion_util.hpp:6-15: the counters afterwards; the second one is returned. -/
def utf16IndexFrom (s : List Nat) (d : List UInt8) (target src dst : Nat) : Option (Nat × Nat) :=
  walkBoth (u16Fwd s) (u8Fwd d) target (target - src) src dst

/-- `utf16_index_to_utf8`, test/utf_conversion_util.hpp:17-23. -/
def utf16IndexToUtf8 (s : List Nat) (d : List UInt8) (target : Nat) : Option Nat :=
  (utf16IndexFrom s d target 0 0).map (·.2)

/-- `utf8_index_to_utf16` with counters, test/utf_conversion_util.hpp:25-34. -/
def utf8IndexFrom (s : List UInt8) (d : List Nat) (target src dst : Nat) : Option (Nat × Nat) :=
  walkBoth (u8Fwd s) (u16Fwd d) target (target - src) src dst

/-- `utf8_index_to_utf16`, test/utf_conversion_util.hpp:36-42. -/
def utf8IndexToUtf16 (s : List UInt8) (d : List Nat) (target : Nat) : Option Nat :=
  (utf8IndexFrom s d target 0 0).map (·.2)

namespace Layout
variable {φ : Type _}

/-- The loop over the positions, test/convert_layout_info_utf8.cpp:20-23: `n` values from index `i` on. -/
def copyPositions (src : Layout φ) : Nat → Nat → Layout φ → Option (Layout φ)
  | 0, _, dst => some dst
  | n + 1, i, dst =>
    if i < src.pos.length then
      match src.pos[i]?, src.pos[i + 1]? with
      | some x, some y => copyPositions src n (i + 2) (dst.appendGlyphPosition x y)
      | _, _ => none
    else some dst

/-- `convert_char_indices`, test/convert_layout_info_utf8.cpp:33-39: `n` glyphs from `i` on. -/
def convertCharIndices (src : Layout φ) (s : List Nat) (d : List UInt8) : Nat → Nat → Layout φ → Option (Layout φ)
  | 0, _, dst => some dst
  | n + 1, i, dst =>
    match src.charIdx[i]? with
    | none => none
    | some c =>
      match utf16IndexToUtf8 s d c with
      | none => none
      | some c => convertCharIndices src s d n (i + 1) (dst.appendCharIndex c)

/-- The glyphs of a run, test/convert_layout_info_utf8.cpp:45-47: `n` of them from `i` on. -/
def copyGlyphs (src : Layout φ) : Nat → Nat → Layout φ → Option (Layout φ)
  | 0, _, dst => some dst
  | n + 1, i, dst =>
    match src.glyphs[i]? with
    | none => none
    | some g => copyGlyphs src n (i + 1) (dst.appendGlyph g)

/-- One run, test/convert_layout_info_utf8.cpp:45-56.  The length of the separator is a `uint8_t`. -/
def convertRun (src : Layout φ) (s : List Nat) (d : List UInt8) (run : Nat) (dst : Layout φ) : Option (Layout φ) :=
  match src.runs[run]?, src.firstGlyphIndex run with
  | some r, some first =>
    (copyGlyphs src (r.glyphEnd - first) first dst).bind fun dst =>
      match utf16IndexToUtf8 s d (r.charEnd + r.charEndOffset), utf16IndexToUtf8 s d r.charEnd,
        utf16IndexToUtf8 s d r.charStart with
      | some high, some low, some start =>
        (dst.appendRun r.font start low r.rtl).setRunCharEndOffset run (u32 ((high : Int) - low) % 256)
      | _, _, _ => none
  | _, _ => none

/-- The runs of a line, test/convert_layout_info_utf8.cpp:44: `n` of them from `run` on. -/
def convertLineRuns (src : Layout φ) (s : List Nat) (d : List UInt8) : Nat → Nat → Layout φ → Option (Layout φ)
  | 0, _, dst => some dst
  | n + 1, run, dst => (convertRun src s d run dst).bind (convertLineRuns src s d n (run + 1))

/-- `convert_runs`, test/convert_layout_info_utf8.cpp:41-61: `n` lines from `line` on, the next run is `run`. -/
def convertRuns (src : Layout φ) (s : List Nat) (d : List UInt8) : Nat → Nat → Nat → Layout φ → Option (Layout φ)
  | 0, _, _, dst => some dst
  | n + 1, line, run, dst =>
    match src.lines[line]?, src.lineHeight line with
    | some l, some height =>
      (convertLineRuns src s d (l.runsEnd - run) run dst).bind fun dst =>
        (dst.appendLine height l.ascent).bind (convertRuns src s d n (line + 1) (max run l.runsEnd))
    | _, _ => none

/-- `convert_layout_info_to_utf8`, test/convert_layout_info_utf8.cpp:15-29. -/
def convertToUtf8 (src : Layout φ) (s : List Nat) (d : List UInt8) (result : Layout φ) : Option (Layout φ) :=
  (copyPositions src src.pos.length 0 result.clear).bind fun dst =>
  (convertCharIndices src s d src.glyphs.length 0 dst).bind fun dst =>
  (convertRuns src s d src.lines.length 0 0 dst).map fun dst => dst.setTextStartY src.startY

end Layout

end RichText
