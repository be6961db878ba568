import Verif.Model.Bytes
import Verif.Model.Handles
import Verif.Model.ValueRuns
/-!
Model of `src/formatting.cpp`, the inline markup parser.

* Text is a list of bytes; `m_iter` is the list of bytes not yet read.
* `m_error` is sticky in the code.  Functions that only read the text return the
  flag "an error was raised"; the callers or it into `PState.error`.
* Floating point values are an abstract type `F` with the operations the parser
  uses (`Floats F`), so no rounding is modelled here.
* `FontRegistry::get_family` is a parameter (`Env.getFamily`, modelled itself in
  `Verif/Model/FontRegistry.lean`).
* `Env.past` says what reading one byte past `numberBuffer` gives: `none` is
  undefined behaviour, `some b` the byte that happens to lie there.
* Positions are unbounded (no `int32_t` wrap-around of the output size).
-/
namespace RichText

/-- The floating point operations the parser uses. -/
structure Floats (F : Type _) where
  zero : F
  one : F
  /-- `static_cast<float>(n) / 255.f`, src/color.hpp:13-15. -/
  channel : Nat → F
  /-- `1.f - x`, src/formatting.cpp:502. -/
  oneMinus : F → F
  /-- `std::from_chars` for `float`; `none` is an error. -/
  fromChars : List UInt8 → Option F

/-- What the parser gets from outside. -/
structure Env (F : Type _) extends Floats F where
  /-- `FontRegistry::get_family`, src/formatting.cpp:420. -/
  getFamily : List UInt8 → FamilyHandle
  past : Option UInt8

/-- `Color`, src/color.hpp:7-11. -/
structure Color (F : Type _) where
  r : F
  g : F
  b : F
  a : F
deriving Repr, DecidableEq

/-- `StrokeType`, src/stroke_type.hpp:7-12. -/
inductive StrokeType where
  | none
  | round
  | bevel
  | miter
deriving Repr, DecidableEq

/-- `StrokeState`, src/formatting.hpp:12-16. -/
structure StrokeState (F : Type _) where
  color : Color F
  thickness : Nat
  joins : StrokeType
deriving Repr, DecidableEq

/-- Ways in which a run of the parser model can fail to be a normal run. -/
inductive Fault where
  /-- more recursion than the bound allows for -/
  | fuel
  /-- `back()` or `pop_back()` of an empty stack -/
  | stack
  /-- access outside a fixed size local buffer -/
  | overrun
deriving Repr, DecidableEq

/-! ### Reading the text -/

/-- `SENTINEL`, src/formatting.cpp:15. -/
def sentinel : UInt8 := 0xFF

/-- `is_space`, src/formatting.cpp:17-19. -/
def isSpace (c : UInt8) : Bool := c == 32 || c == 9 || c == 13 || c == 10

/-- `c >= '0' && c <= '9'`. -/
def isDigit (c : UInt8) : Bool := 48 ≤ c && c ≤ 57

/-- `next_char`, src/formatting.cpp:778-780. -/
def nextChar : List UInt8 → UInt8 × List UInt8
  | [] => (sentinel, [])
  | c :: t => (c, t)

/-- Result of a function that reads text: the value, whether an error was
raised, and the text not yet read. -/
structure Lex (α : Type _) where
  val : α
  err : Bool
  rest : List UInt8
deriving Repr, DecidableEq

/-- `consume_char`, src/formatting.cpp:759-766; the returned `bool` is
`!err`. -/
def consumeChar (c : UInt8) (l : List UInt8) : Lex Unit :=
  let (d, t) := nextChar l
  ⟨(), d != c, t⟩

/-- `consume_word`, src/formatting.cpp:768-776; the returned `bool` is
`!err`. -/
def consumeWord : List UInt8 → List UInt8 → Lex Unit
  | [], l => ⟨(), false, l⟩
  | w :: ws, l =>
    let r := consumeChar w l
    if r.err then r else consumeWord ws r.rest

/-- The comment body loop, src/formatting.cpp:251-269. -/
def commentBody : List UInt8 → Lex Unit
  | [] => ⟨(), true, []⟩
  | c :: t =>
    if c = sentinel then ⟨(), true, t⟩
    else if c = c!"-" then
      let r := consumeChar c!"-" t
      if r.err then r else consumeChar c!">" r.rest
    else commentBody t

/-- `parse_comment`, src/formatting.cpp:242-270. -/
def parseComment (l : List UInt8) : Lex Unit :=
  let r := consumeChar c!"-" l
  if r.err then r
  else
    let r := consumeChar c!"-" r.rest
    if r.err then r else commentBody r.rest

/-- The loop that reads an attribute value up to the closing quote,
src/formatting.cpp:563-576 and 527-555. -/
def scanQuote : List UInt8 → Lex (List UInt8)
  | [] => ⟨[], true, []⟩
  | c :: t =>
    if c = c!"\"" then ⟨[], false, t⟩
    else if c = sentinel then ⟨[], true, t⟩
    else
      let r := scanQuote t
      ⟨if r.err then [] else c :: r.val, r.err, r.rest⟩

/-- `parse_attribute(name)`, src/formatting.cpp:558-577. -/
def parseAttr (name : List UInt8) (l : List UInt8) : Lex (List UInt8) :=
  let r := consumeWord name l
  if r.err then ⟨[], true, r.rest⟩ else scanQuote r.rest

/-- Value of a string of decimal digits. -/
def decimal (l : List UInt8) : Nat := l.foldl (fun n c => 10 * n + (c.toNat - 48)) 0

/-- `std::from_chars` for an unsigned type with maximum `max`: the longest
prefix of digits; `none` if there is none or the value does not fit. -/
def fromCharsUnsigned (max : Nat) (l : List UInt8) : Option Nat :=
  let d := l.takeWhile isDigit
  if d.isEmpty then none else if decimal d ≤ max then some (decimal d) else none

/-- value of a hexadecimal digit. -/
def hexDigit (c : UInt8) : Option Nat :=
  if 48 ≤ c && c ≤ 57 then some (c.toNat - 48)
  else if 65 ≤ c && c ≤ 70 then some (c.toNat - 55)
  else if 97 ≤ c && c ≤ 102 then some (c.toNat - 87)
  else none

/-- `parse_color_hex`, src/formatting.cpp:681-702: `n` digits still to read.
`from_chars` on six hex digits always consumes all six. -/
def parseColorHex : Nat → Nat → List UInt8 → Lex Nat
  | 0, acc, l => ⟨acc, false, l⟩
  | n + 1, acc, l =>
    let (c, t) := nextChar l
    match hexDigit c with
    | some d => parseColorHex n (16 * acc + d) t
    | none => ⟨0, true, t⟩

/-- Skip white space, src/formatting.cpp:717-722: returns the text starting with
the current character `c` (empty: `c` is the sentinel). -/
def skipSpace : List UInt8 → List UInt8
  | [] => []
  | c :: t => if isSpace c then skipSpace t else c :: t

/-- Skip trailing white space, src/formatting.cpp:731-738. -/
def skipToStop (stop : UInt8) : List UInt8 → Lex Unit
  | [] => ⟨(), true, []⟩
  | c :: t =>
    if c = stop then ⟨(), false, t⟩
    else if isSpace c then skipToStop stop t
    else ⟨(), true, t⟩

/-- The value `from_chars(numberBuffer, numberBuffer + i + 1, channel)` leaves in
the channel, src/formatting.cpp:728.  The buffer has three bytes, zero
initialised; with three digits stored the fourth byte read lies past it. -/
def rgbValue (past : Option UInt8) (buf : List UInt8) : Except Fault Nat :=
  if buf.length < 3 then .ok ((fromCharsUnsigned 255 buf).getD 0)
  else
    match past with
    | none => .error .overrun
    | some b => .ok ((fromCharsUnsigned 255 (buf ++ [b])).getD 0)

/-- The loop that reads one channel, src/formatting.cpp:724-748.  The list
starts with the current character `c`. -/
def rgbChannel (past : Option UInt8) (stop : UInt8) : List UInt8 → List UInt8 →
    Except Fault (Lex Nat)
  | _, [] => .ok ⟨0, true, []⟩
  | buf, c :: t =>
    if isDigit c && buf.length < 3 then rgbChannel past stop (buf ++ [c]) t
    else if isSpace c || c == stop then
      match rgbValue past buf with
      | .error e => .error e
      | .ok v =>
        let r := skipToStop stop (c :: t)
        .ok ⟨v, r.err, r.rest⟩
    else .ok ⟨0, true, t⟩

/-- `parse_color_rgb`, src/formatting.cpp:704-757. -/
def parseColorRgb (past : Option UInt8) (l : List UInt8) : Except Fault (Lex Nat) :=
  let r := consumeWord b!"gb(" l
  if r.err then .ok ⟨0, true, r.rest⟩
  else
    match rgbChannel past c!"," [] (skipSpace r.rest) with
    | .error e => .error e
    | .ok r1 =>
      if r1.err then .ok ⟨0, true, r1.rest⟩
      else
        match rgbChannel past c!"," [] (skipSpace r1.rest) with
        | .error e => .error e
        | .ok r2 =>
          if r2.err then .ok ⟨0, true, r2.rest⟩
          else
            match rgbChannel past c!")" [] (skipSpace r2.rest) with
            | .error e => .error e
            | .ok r3 =>
              if r3.err then .ok ⟨0, true, r3.rest⟩
              else .ok ⟨r1.val * 65536 + r2.val * 256 + r3.val, false, r3.rest⟩

/-- `parse_color`, src/formatting.cpp:669-679. -/
def parseColor (past : Option UInt8) (l : List UInt8) : Except Fault (Lex Nat) :=
  let (c, t) := nextChar l
  if c = c!"#" then .ok (parseColorHex 6 0 t)
  else if c = c!"r" then parseColorRgb past t
  else .ok ⟨0, true, t⟩

variable {F : Type _}

/-- `Color::from_abgr_uint` followed by `a = 1`, src/color.hpp:17-20,
src/formatting.cpp:602-603.  (`rgb >> 16` is not masked; the parser never
passes more than 24 bits.) -/
def Floats.ofRgb (fl : Floats F) (n : Nat) : Color F :=
  ⟨fl.channel (n / 65536), fl.channel (n / 256 % 256), fl.channel (n % 256), fl.one⟩

/-- `parse_attribute(name, Color&)`, src/formatting.cpp:588-604: `none` leaves
the colour as it was. -/
def parseAttrColor (env : Env F) (name l : List UInt8) : Except Fault (Lex (Option (Color F))) :=
  let r := consumeWord name l
  if r.err then .ok ⟨none, true, r.rest⟩
  else
    match parseColor env.past r.rest with
    | .error e => .error e
    | .ok r =>
      if r.err then .ok ⟨none, true, r.rest⟩
      else
        let q := consumeChar c!"\"" r.rest
        if q.err then .ok ⟨none, true, q.rest⟩
        else .ok ⟨some (env.ofRgb r.val), false, q.rest⟩

/-- ASCII lower case, src/formatting.cpp:617-624. -/
def lowerByte (c : UInt8) : UInt8 := if 65 ≤ c && c ≤ 90 then c + 32 else c

/-- the named weights, src/formatting.cpp:637-663, with their numeric value. -/
def weightNames : List (List UInt8 × BitVec 8) :=
  [(b!"thin", 0), (b!"extra light", 1), (b!"light", 2), (b!"regular", 3), (b!"medium", 4),
   (b!"semi bold", 5), (b!"bold", 6), (b!"extra bold", 7), (b!"black", 8)]

/-- the weight an attribute value denotes, src/formatting.cpp:626-666; `none` is
an error.  `strcmp` sees the lower-cased value up to the first NUL. -/
def weightValue (attrib : List UInt8) : Option (BitVec 8) :=
  match fromCharsUnsigned 4294967295 attrib with
  | some n => if 100 ≤ n ∧ n ≤ 900 ∧ n % 100 = 0 then some (BitVec.ofNat 8 (n / 100 - 1)) else none
  | none =>
    (weightNames.find? fun p => p.1 == (attrib.map lowerByte).takeWhile (· != 0)).map (·.2)

/-- `parse_attribute(name, FontWeight&)`, src/formatting.cpp:606-667.  The copy
loop writes `attrib.size()` bytes into a buffer of 16 also when the error for
`size() >= 16` has been raised. -/
def parseAttrWeight (name l : List UInt8) : Except Fault (Lex (Option (BitVec 8))) :=
  let r := parseAttr name l
  if r.val.length > 16 then .error .overrun
  else
    let w := weightValue r.val
    .ok ⟨w, r.err || decide (16 ≤ r.val.length) || w.isNone, r.rest⟩

/-! ### Attributes of `<font>` and `<stroke>` -/

/-- `FontAttributes`, src/formatting.cpp:23-31. -/
structure FontAttrs (F : Type _) where
  family : FamilyHandle := invalidFamily
  size : BitVec 32 := 0
  color : Color F
  weight : BitVec 8 := 3
  colorChange : Bool := false
  sizeChange : Bool := false
  weightChange : Bool := false
deriving Repr, DecidableEq

/-- `parse_font_face`, src/formatting.cpp:413-425. -/
def parseFontFace (env : Env F) (a : FontAttrs F) (l : List UInt8) : Lex (FontAttrs F) :=
  let r := parseAttr b!"ace=\"" l
  if r.val.isEmpty then ⟨a, true, r.rest⟩
  else
    let f := env.getFamily r.val
    ⟨{ a with family := f }, r.err || !FamilyHandle.valid f, r.rest⟩

/-- The loop of `parse_font_attributes`, src/formatting.cpp:380-411.  `err` is
the error flag so far. -/
def parseFontAttrs (env : Env F) : Nat → FontAttrs F → Bool → List UInt8 →
    Except Fault (Lex (FontAttrs F))
  | 0, _, _, _ => .error .fuel
  | n + 1, a, err, l =>
    let (c, t) := nextChar l
    if c = c!"c" then
      match parseAttrColor env b!"olor=\"" t with
      | .error e => .error e
      | .ok r =>
        parseFontAttrs env n { a with color := r.val.getD a.color, colorChange := true }
          (err || r.err) r.rest
    else if c = c!"f" then
      let r := parseFontFace env a t
      parseFontAttrs env n r.val (err || r.err) r.rest
    else if c = c!"s" then
      let r := parseAttr b!"ize=\"" t
      let v := fromCharsUnsigned 4294967295 r.val
      parseFontAttrs env n
        { a with size := (v.map (BitVec.ofNat 32)).getD a.size, sizeChange := true }
        (err || r.err || v.isNone) r.rest
    else if c = c!"w" then
      match parseAttrWeight b!"eight=\"" t with
      | .error e => .error e
      | .ok r =>
        parseFontAttrs env n { a with weight := r.val.getD a.weight, weightChange := true }
          (err || r.err) r.rest
    else if c = c!" " then parseFontAttrs env n a err t
    else if c = c!">" then .ok ⟨a, err, t⟩
    else .ok ⟨a, true, t⟩

/-- `parse_stroke_joins`, src/formatting.cpp:522-556. -/
def parseJoins (s : StrokeState F) (l : List UInt8) : Lex (StrokeState F) :=
  let r := consumeWord b!"oins=\"" l
  if r.err then ⟨s, true, r.rest⟩
  else
    let q := scanQuote r.rest
    if q.err then ⟨s, true, q.rest⟩
    else if q.val = b!"round" then ⟨{ s with joins := .round }, false, q.rest⟩
    else if q.val = b!"bevel" then ⟨{ s with joins := .bevel }, false, q.rest⟩
    else if q.val = b!"miter" then ⟨{ s with joins := .miter }, false, q.rest⟩
    else ⟨s, true, q.rest⟩

/-- The loop of `parse_stroke_attributes`, src/formatting.cpp:483-520. -/
def parseStrokeAttrs (env : Env F) : Nat → StrokeState F → Bool → List UInt8 →
    Except Fault (Lex (StrokeState F))
  | 0, _, _, _ => .error .fuel
  | n + 1, s, err, l =>
    let (c, t) := nextChar l
    if c = c!"c" then
      match parseAttrColor env b!"olor=\"" t with
      | .error e => .error e
      | .ok r =>
        let c : Color F := r.val.getD ⟨env.zero, env.zero, env.zero, env.zero⟩
        parseStrokeAttrs env n { s with color := ⟨c.r, c.g, c.b, s.color.a⟩ } (err || r.err) r.rest
    else if c = c!"j" then
      let r := parseJoins s t
      parseStrokeAttrs env n r.val (err || r.err) r.rest
    else if c = c!"t" then
      let (d, t) := nextChar t
      if d = c!"h" then
        let r := parseAttr b!"ickness=\"" t
        let v := fromCharsUnsigned 255 r.val
        parseStrokeAttrs env n { s with thickness := v.getD s.thickness }
          (err || r.err || v.isNone) r.rest
      else if d = c!"r" then
        let r := parseAttr b!"ansparency=\"" t
        let v := env.fromChars r.val
        parseStrokeAttrs env n
          { s with color := { s.color with a := env.oneMinus (v.getD s.color.a) } }
          (err || r.err || v.isNone) r.rest
      else parseStrokeAttrs env n s true t
    else if c = c!" " then parseStrokeAttrs env n s err t
    else if c = c!">" then .ok ⟨s, err, t⟩
    else .ok ⟨s, true, t⟩

/-- initial stroke, src/formatting.cpp:477-481. -/
def Floats.defaultStroke (fl : Floats F) : StrokeState F :=
  ⟨⟨fl.zero, fl.zero, fl.zero, fl.one⟩, 1, .round⟩

/-! ### The parser state -/

/-- The five boolean run builders, src/formatting.cpp:53-57. -/
inductive Flag where
  | strikethrough
  | underline
  | smallcaps
  | subscript
  | superscript
deriving Repr, DecidableEq

/-- `FormattingParser`, src/formatting.cpp:33-103.  The packed boolean runs are
represented by ordinary ones (property C02 shows that they behave the same). -/
structure PState (F : Type _) where
  rest : List UInt8
  out : List UInt8
  error : Bool
  font : RunBuilder Font
  color : RunBuilder (Color F)
  stroke : RunBuilder (StrokeState F)
  flags : Flag → RunBuilder Bool

/-- Outcome of a builder operation: `none` there is an empty stack. -/
def onStack {α : Type _} (o : Option α) : Except Fault α :=
  match o with
  | none => .error .stack
  | some a => .ok a

/-- `m_output.view().size()`. -/
def PState.size (s : PState F) : Int := s.out.length

/-- `FormattingParser::parse_content` as seen by the functions it calls. -/
abbrev ContentFn (F : Type _) := List UInt8 → PState F → Except Fault (PState F)

/-- update of one of the boolean builders. -/
def setFlag (f : Flag → RunBuilder Bool) (k : Flag) (b : RunBuilder Bool) : Flag → RunBuilder Bool :=
  fun j => if j = k then b else f j

/-- `parse_bool_tag`, src/formatting.cpp:427-431. -/
def parseBoolTag (content : ContentFn F) (k : Flag) (close : List UInt8) (s : PState F) :
    Except Fault (PState F) :=
  match onStack ((s.flags k).push s.size true) with
  | .error e => .error e
  | .ok b =>
    match content close { s with flags := setFlag s.flags k b } with
    | .error e => .error e
    | .ok s =>
      match onStack ((s.flags k).pop s.size) with
      | .error e => .error e
      | .ok b => .ok { s with flags := setFlag s.flags k b }

/-- `parse_smallcaps`, src/formatting.cpp:453-459. -/
def parseSmallcaps (content : ContentFn F) (close : List UInt8) (s : PState F) :
    Except Fault (PState F) :=
  let r := consumeWord (close.drop 2) s.rest
  let s := { s with rest := r.rest, error := s.error || r.err }
  if r.err then .ok s else parseBoolTag content .smallcaps close s

/-- `parse_italic`, src/formatting.cpp:433-451. -/
def parseItalic (content : ContentFn F) (s : PState F) : Except Fault (PState F) :=
  let r := consumeChar c!">" s.rest
  let s := { s with rest := r.rest, error := s.error || r.err }
  if r.err then .ok s
  else
    match onStack s.font.current with
    | .error e => .error e
    | .ok cur =>
      if cur.face.getStyle ≠ .italic then
        match onStack (s.font.push s.size
            (Font.make cur.face.getFamily cur.face.getWeight .italic cur.size)) with
        | .error e => .error e
        | .ok b =>
          match content b!"i>" { s with font := b } with
          | .error e => .error e
          | .ok s =>
            match onStack (s.font.pop s.size) with
            | .error e => .error e
            | .ok b => .ok { s with font := b }
      else content b!"i>" s

/-- `hasFontChange`, src/formatting.cpp:352-354. -/
def FontAttrs.changes (a : FontAttrs F) (cur : Font) : Bool :=
  (FamilyHandle.valid a.family && a.family != cur.face.getFamily)
    || (a.sizeChange && a.size != cur.size)
    || (a.weightChange && a.weight != cur.face.getWeight)

/-- the new font, src/formatting.cpp:357-360. -/
def FontAttrs.apply (a : FontAttrs F) (cur : Font) : Font :=
  Font.make (if FamilyHandle.valid a.family then a.family else cur.face.getFamily)
    (if a.weightChange then a.weight else cur.face.getWeight) cur.face.getStyle
    (if a.sizeChange then a.size else cur.size)

/-- push if a condition holds (`if (hasFontChange) m_fontRuns.push(...)`). -/
def pushIf {α : Type _} (c : Bool) (b : RunBuilder α) (limit : Int) (x : α) :
    Except Fault (RunBuilder α) :=
  if c then onStack (b.push limit x) else .ok b

/-- pop if a condition holds. -/
def popIf {α : Type _} (c : Bool) (b : RunBuilder α) (limit : Int) : Except Fault (RunBuilder α) :=
  if c then onStack (b.pop limit) else .ok b

/-- `parse_font`, src/formatting.cpp:344-378. -/
def parseFont (env : Env F) (content : ContentFn F) (s : PState F) : Except Fault (PState F) :=
  let r := consumeWord b!"ont" s.rest
  if r.err then .ok { s with rest := r.rest, error := true }
  else
    match parseFontAttrs env (r.rest.length + 1)
        { color := ⟨env.zero, env.zero, env.zero, env.zero⟩ } s.error r.rest with
    | .error e => .error e
    | .ok q =>
      let a := q.val
      let s := { s with rest := q.rest, error := q.err }
      match onStack s.font.current with
      | .error e => .error e
      | .ok cur =>
        let ch := a.changes cur
        match pushIf ch s.font s.size (a.apply cur) with
        | .error e => .error e
        | .ok fb =>
          match pushIf a.colorChange s.color s.size a.color with
          | .error e => .error e
          | .ok cb =>
            match content b!"font>" { s with font := fb, color := cb } with
            | .error e => .error e
            | .ok s =>
              match popIf ch s.font s.size with
              | .error e => .error e
              | .ok fb =>
                match popIf a.colorChange s.color s.size with
                | .error e => .error e
                | .ok cb => .ok { s with font := fb, color := cb }

/-- `parse_stroke`, src/formatting.cpp:461-474. -/
def parseStroke (env : Env F) (content : ContentFn F) (s : PState F) : Except Fault (PState F) :=
  let r := consumeWord b!"roke" s.rest
  if r.err then .ok { s with rest := r.rest, error := true }
  else
    match parseStrokeAttrs env (r.rest.length + 1) env.defaultStroke s.error r.rest with
    | .error e => .error e
    | .ok q =>
      let s := { s with rest := q.rest, error := q.err }
      match onStack (s.stroke.push s.size q.val) with
      | .error e => .error e
      | .ok b =>
        match content b!"stroke>" { s with stroke := b } with
        | .error e => .error e
        | .ok s =>
          match onStack (s.stroke.pop s.size) with
          | .error e => .error e
          | .ok b => .ok { s with stroke := b }

/-- `parse_su_tag`, src/formatting.cpp:322-342. -/
def parseSuTag (content : ContentFn F) (s : PState F) : Except Fault (PState F) :=
  let (c, t) := nextChar s.rest
  if c = c!"b" then
    let r := consumeChar c!">" t
    let s := { s with rest := r.rest, error := s.error || r.err }
    if r.err then .ok s else parseBoolTag content .subscript b!"sub>" s
  else if c = c!"p" then
    let r := consumeWord b!"er>" t
    let s := { s with rest := r.rest, error := s.error || r.err }
    if r.err then .ok s else parseBoolTag content .superscript b!"super>" s
  else .ok { s with rest := t, error := true }

/-- `parse_s_tag`, src/formatting.cpp:272-293. -/
def parseSTag (env : Env F) (content : ContentFn F) (s : PState F) : Except Fault (PState F) :=
  let (c, t) := nextChar s.rest
  let s := { s with rest := t }
  if c = c!">" then parseBoolTag content .strikethrough b!"s>" s
  else if c = c!"c" then parseSmallcaps content b!"sc>" s
  else if c = c!"m" then parseSmallcaps content b!"smallcaps>" s
  else if c = c!"t" then parseStroke env content s
  else if c = c!"u" then parseSuTag content s
  else .ok { s with error := true }

/-- `parse_u_tag`, src/formatting.cpp:295-320. -/
def parseUTag (content : ContentFn F) (s : PState F) : Except Fault (PState F) :=
  let (c, t) := nextChar s.rest
  if c = c!">" then parseBoolTag content .underline b!"u>" { s with rest := t }
  else if c = c!"c" then
    let r := consumeChar c!">" t
    .ok { s with rest := r.rest, error := s.error || r.err }
  else if c = c!"p" then
    let r := consumeWord b!"percase>" t
    .ok { s with rest := r.rest, error := s.error || r.err }
  else .ok { s with rest := t, error := true }

/-- `parse_open_bracket`, src/formatting.cpp:209-240: the new state and the
returned `bool`. -/
def parseOpenBracket (env : Env F) (content : ContentFn F) (close : List UInt8) (s : PState F) :
    Except Fault (PState F × Bool) :=
  let (c, t) := nextChar s.rest
  let s := { s with rest := t }
  if c = c!"!" then
    let r := parseComment s.rest
    .ok ({ s with rest := r.rest, error := s.error || r.err }, false)
  else if c = c!"/" then
    if close.isEmpty then .ok ({ s with error := true }, true)
    else
      let r := consumeWord close s.rest
      .ok ({ s with rest := r.rest, error := s.error || r.err }, true)
  else if c = c!"f" then (parseFont env content s).map (·, false)
  else if c = c!"i" then (parseItalic content s).map (·, false)
  else if c = c!"s" then (parseSTag env content s).map (·, false)
  else if c = c!"u" then (parseUTag content s).map (·, false)
  else .ok ({ s with error := true }, true)

/-- the last step of `finalize_runs` for one builder. -/
def finalPop {α : Type _} (b : RunBuilder α) (limit : Int) : Except Fault (RunBuilder α) :=
  onStack (b.pop limit)

/-- `finalize_runs`, src/formatting.cpp:790-799. -/
def finalizeRuns (s : PState F) : Except Fault (PState F) :=
  match finalPop s.font s.size, finalPop s.color s.size, finalPop s.stroke s.size,
    finalPop (s.flags .strikethrough) s.size, finalPop (s.flags .underline) s.size,
    finalPop (s.flags .smallcaps) s.size, finalPop (s.flags .subscript) s.size,
    finalPop (s.flags .superscript) s.size with
  | .ok f, .ok c, .ok k, .ok b1, .ok b2, .ok b3, .ok b4, .ok b5 =>
    .ok { s with
      font := f, color := c, stroke := k,
      flags := fun
        | .strikethrough => b1
        | .underline => b2
        | .smallcaps => b3
        | .subscript => b4
        | .superscript => b5 }
  | _, _, _, _, _, _, _, _ => .error .stack

/-- `parse_content`, src/formatting.cpp:180-207: one iteration of the loop, then
the rest of the loop.  Both the following iterations and the nested calls use
one unit of `fuel` less. -/
def parseContent (env : Env F) : Nat → List UInt8 → PState F → Except Fault (PState F)
  | 0, _, _ => .error .fuel
  | n + 1, close, s =>
    let (c, t) := nextChar s.rest
    let s := { s with rest := t }
    if c = sentinel then
      if close.isEmpty then finalizeRuns s else .ok { s with error := true }
    else if c = c!"<" then
      match parseOpenBracket env (parseContent env n) close s with
      | .error e => .error e
      | .ok (s, true) => .ok s
      | .ok (s, false) => if s.error then .ok s else parseContent env n close s
    else
      let s := { s with out := s.out ++ [c] }
      if s.error then .ok s else parseContent env n close s

/-- `FormattingRuns`, src/formatting.hpp:18-27. -/
structure FormattingRuns (F : Type _) where
  font : ValueRuns Font
  color : ValueRuns (Color F)
  stroke : ValueRuns (StrokeState F)
  flags : Flag → ValueRuns Bool

/-- constructor, src/formatting.cpp:135-147. -/
def PState.init (text : List UInt8) (font : Font) (color : Color F) (stroke : StrokeState F) :
    PState F where
  rest := text
  out := []
  error := false
  font := .init font
  color := .init color
  stroke := .init stroke
  flags := fun _ => .init false

/-- `make_default_formatting_runs`, src/formatting.cpp:109-124. -/
def makeDefaultRuns (text : List UInt8) (font : Font) (color : Color F) (stroke : StrokeState F) :
    List UInt8 × FormattingRuns F :=
  (text,
    { font := .single font text.length
      color := .single color text.length
      stroke := .single stroke text.length
      flags := fun _ => .single false text.length })

/-- `get_result`, src/formatting.cpp:149-170. -/
def PState.getResult (text : List UInt8) (s : PState F) :
    Except Fault (List UInt8 × FormattingRuns F) :=
  if s.error then
    match s.font.base, s.color.base, s.stroke.base with
    | some f, some c, some k => .ok (makeDefaultRuns text f c k)
    | _, _, _ => .error .stack
  else
    .ok (s.out,
      { font := s.font.runs
        color := s.color.runs
        stroke := s.stroke.runs
        flags := fun k => (s.flags k).runs })

/-- `parse_inline_formatting`, src/formatting.cpp:126-131.  The result is the
content text and the runs. -/
def parseInlineFormatting (env : Env F) (text : List UInt8) (font : Font) (color : Color F)
    (stroke : StrokeState F) : Except Fault (List UInt8 × FormattingRuns F) :=
  match parseContent env (text.length + 1) [] (PState.init text font color stroke) with
  | .error e => .error e
  | .ok s => s.getResult text

end RichText
