import Verif.Model.Bytes
import Verif.Model.Formatting
import Mathlib.Data.List.Forall2
/-!
The markup language, as a grammar that says nothing about how it is parsed.

`Content env st m o` reads: the bytes `m` are well-formed markup, and inside
formatting `st` they stand for the content `o`, a list of bytes each with the
formatting it has to be shown in.

Of the model this uses only the types (`Font`, `Color`, `StrokeState`, `Env`).
-/
namespace RichText.Spec

variable {F : Type _}

/-- The formatting of one byte of content. -/
structure Style (F : Type _) where
  font : Font
  color : Color F
  stroke : StrokeState F
  flag : Flag → Bool

/-- Turn one of the flags on. -/
def Style.on (st : Style F) (k : Flag) : Style F :=
  { st with flag := fun j => if j = k then true else st.flag j }

/-- A quoted attribute value: no quote and no byte 0xFF. -/
def Quoted (v : List UInt8) : Prop := ∀ c ∈ v, c ≠ c!"\"" ∧ c ≠ 0xFF

/-- White space as allowed inside `rgb(...)`. -/
def Spaces (v : List UInt8) : Prop := ∀ c ∈ v, c = 32 ∨ c = 9 ∨ c = 13 ∨ c = 10

/-- One to three number digits (or none, which counts as 0). -/
def ShortNumber (v : List UInt8) : Prop := v.length ≤ 3 ∧ ∀ c ∈ v, 48 ≤ c ∧ c ≤ 57

/-- The value of a numeral, most significant digit first. -/
def number : List UInt8 → Nat
  | [] => 0
  | c :: t => (c.toNat - 48) * 10 ^ t.length + number t

/-- A decimal digit. -/
def Digit (c : UInt8) : Prop := 48 ≤ c ∧ c ≤ 57

/-- The attribute value `v` starts with a numeral for `n`, at most `max`
(anything may follow). -/
def StartsWithNumber (max : Nat) (v : List UInt8) (n : Nat) : Prop :=
  ∃ d t, v = d ++ t ∧ d ≠ [] ∧ (∀ c ∈ d, Digit c) ∧ (∀ c u, t = c :: u → ¬ Digit c) ∧
    n = number d ∧ n ≤ max

/-- A hexadecimal digit of value `n`. -/
abbrev HexDigit (c : UInt8) (n : Nat) : Prop :=
  n < 16 ∧ (b!"0123456789abcdef"[n]? = some c ∨ b!"0123456789ABCDEF"[n]? = some c)

/-- The names of the weights, from 0 (100) to 8 (900). -/
def weights : List (List UInt8) :=
  [b!"thin", b!"extra light", b!"light", b!"regular", b!"medium", b!"semi bold", b!"bold",
   b!"extra bold", b!"black"]

/-- Equal up to the case of ASCII letters: `c` stands for the lower case `d`. -/
def Lower (c d : UInt8) : Prop := (c = d ∧ ¬ (65 ≤ c ∧ c ≤ 90)) ∨ (65 ≤ c ∧ c ≤ 90 ∧ d.toNat = c.toNat + 32)

/-- A weight: a multiple of 100 from 100 to 900, or one of the names in any case
(cut off at a NUL byte). -/
def WeightText (v : List UInt8) (w : BitVec 8) : Prop :=
  (∃ k, 1 ≤ k ∧ k ≤ 9 ∧ StartsWithNumber 4294967295 v (100 * k) ∧ w = BitVec.ofNat 8 (k - 1)) ∨
  ((¬ ∃ n, StartsWithNumber 4294967295 v n) ∧
    ∃ k u t name, k < 9 ∧ weights[k]? = some name ∧ v = u ++ t ∧ (t = [] ∨ ∃ t', t = 0 :: t') ∧
      List.Forall₂ Lower u name ∧ w = BitVec.ofNat 8 k)

/-- The number a colour channel stands for: its decimal value, 0 if that is
above 255.  If three digits are given, the byte after them in memory must not
be a digit (`env.past`), otherwise the code reads a different number. -/
def ChannelValue (env : Env F) (digits : List UInt8) (n : Nat) : Prop :=
  ShortNumber digits ∧
    (digits.length < 3 → n = if number digits ≤ 255 then number digits else 0) ∧
    (digits.length = 3 → ∃ b, env.past = some b ∧
      n = if 48 ≤ b ∧ b ≤ 57 then
            (if number (digits ++ [b]) ≤ 255 then number (digits ++ [b]) else 0)
          else (if number digits ≤ 255 then number digits else 0))

/-- A colour: `#rrggbb` or `rgb(r, g, b)`. -/
inductive ColorText (env : Env F) : List UInt8 → Color F → Prop
  | hex (d1 d2 d3 d4 d5 d6 : UInt8) (n1 n2 n3 n4 n5 n6 : Nat)
      (h1 : HexDigit d1 n1) (h2 : HexDigit d2 n2) (h3 : HexDigit d3 n3)
      (h4 : HexDigit d4 n4) (h5 : HexDigit d5 n5) (h6 : HexDigit d6 n6) :
      ColorText env (c!"#" :: [d1, d2, d3, d4, d5, d6])
        ⟨env.channel (16 * n1 + n2), env.channel (16 * n3 + n4), env.channel (16 * n5 + n6), env.one⟩
  | rgb (s1 d1 t1 s2 d2 t2 s3 d3 t3 : List UInt8) (n1 n2 n3 : Nat)
      (hs1 : Spaces s1) (ht1 : Spaces t1) (hs2 : Spaces s2) (ht2 : Spaces t2) (hs3 : Spaces s3)
      (ht3 : Spaces t3) (h1 : ChannelValue env d1 n1) (h2 : ChannelValue env d2 n2)
      (h3 : ChannelValue env d3 n3) (e1 : d1 = [] → t1 = []) (e2 : d2 = [] → t2 = [])
      (e3 : d3 = [] → t3 = []) :
      ColorText env (b!"rgb(" ++ s1 ++ d1 ++ t1 ++ b!"," ++ s2 ++ d2 ++ t2 ++ b!"," ++ s3 ++ d3 ++ t3
          ++ b!")")
        ⟨env.channel n1, env.channel n2, env.channel n3, env.one⟩

/-- One attribute of `<font>` (or a space), with its effect on font and colour. -/
inductive FontAttr (env : Env F) : List UInt8 → (Font × Color F → Font × Color F) → Prop
  | space : FontAttr env b!" " id
  | color (t : List UInt8) (c : Color F) (h : ColorText env t c) :
      FontAttr env (b!"color=\"" ++ t ++ b!"\"") (fun p => (p.1, c))
  | face (v : List UInt8) (hv : Quoted v) (hne : v ≠ [])
      (hf : env.getFamily v ≠ 0xFFFF#16) :
      FontAttr env (b!"face=\"" ++ v ++ b!"\"")
        (fun p => (Font.make (env.getFamily v) p.1.face.getWeight p.1.face.getStyle p.1.size, p.2))
  | size (v : List UInt8) (n : Nat) (hv : Quoted v) (hn : StartsWithNumber 4294967295 v n) :
      FontAttr env (b!"size=\"" ++ v ++ b!"\"")
        (fun p => (⟨p.1.face, BitVec.ofNat 32 n⟩, p.2))
  | weight (v : List UInt8) (w : BitVec 8) (hv : Quoted v) (hl : v.length < 16)
      (hw : WeightText v w) :
      FontAttr env (b!"weight=\"" ++ v ++ b!"\"")
        (fun p => (Font.make p.1.face.getFamily w p.1.face.getStyle p.1.size, p.2))

/-- The attributes of `<font>`, later ones winning. -/
inductive FontAttrList (env : Env F) : List UInt8 → (Font × Color F → Font × Color F) → Prop
  | nil : FontAttrList env [] id
  | cons {a m f g} (ha : FontAttr env a f) (hm : FontAttrList env m g) :
      FontAttrList env (a ++ m) (g ∘ f)

/-- One attribute of `<stroke>` (or a space). -/
inductive StrokeAttr (env : Env F) : List UInt8 → (StrokeState F → StrokeState F) → Prop
  | space : StrokeAttr env b!" " id
  | color (t : List UInt8) (c : Color F) (h : ColorText env t c) :
      StrokeAttr env (b!"color=\"" ++ t ++ b!"\"")
        (fun s => { s with color := { c with a := s.color.a } })
  | joinsRound : StrokeAttr env b!"joins=\"round\"" (fun s => { s with joins := .round })
  | joinsBevel : StrokeAttr env b!"joins=\"bevel\"" (fun s => { s with joins := .bevel })
  | joinsMiter : StrokeAttr env b!"joins=\"miter\"" (fun s => { s with joins := .miter })
  | thickness (v : List UInt8) (n : Nat) (hv : Quoted v) (hn : StartsWithNumber 255 v n) :
      StrokeAttr env (b!"thickness=\"" ++ v ++ b!"\"") (fun s => { s with thickness := n })
  | transparency (v : List UInt8) (x : F) (hv : Quoted v) (hx : env.fromChars v = some x) :
      StrokeAttr env (b!"transparency=\"" ++ v ++ b!"\"")
        (fun s => { s with color := { s.color with a := env.oneMinus x } })

/-- The attributes of `<stroke>`. -/
inductive StrokeAttrList (env : Env F) : List UInt8 → (StrokeState F → StrokeState F) → Prop
  | nil : StrokeAttrList env [] id
  | cons {a m f g} (ha : StrokeAttr env a f) (hm : StrokeAttrList env m g) :
      StrokeAttrList env (a ++ m) (g ∘ f)

/-- A tag with its closing name: opening text, formatting inside, closing name. -/
inductive Tag (env : Env F) (st : Style F) : List UInt8 → Style F → List UInt8 → Prop
  | s : Tag env st b!"<s>" (st.on .strikethrough) b!"s"
  | u : Tag env st b!"<u>" (st.on .underline) b!"u"
  | sc : Tag env st b!"<sc>" (st.on .smallcaps) b!"sc"
  | smallcaps : Tag env st b!"<smallcaps>" (st.on .smallcaps) b!"smallcaps"
  | sub : Tag env st b!"<sub>" (st.on .subscript) b!"sub"
  | super : Tag env st b!"<super>" (st.on .superscript) b!"super"
  | i : Tag env st b!"<i>"
      { st with font := Font.make st.font.face.getFamily st.font.face.getWeight .italic st.font.size }
      b!"i"
  | font (a : List UInt8) (f : Font × Color F → Font × Color F) (h : FontAttrList env a f) :
      Tag env st (b!"<font" ++ a ++ b!">")
        { st with font := (f (st.font, st.color)).1, color := (f (st.font, st.color)).2 } b!"font"
  | stroke (a : List UInt8) (f : StrokeState F → StrokeState F) (h : StrokeAttrList env a f) :
      Tag env st (b!"<stroke" ++ a ++ b!">")
        { st with stroke := f ⟨⟨env.zero, env.zero, env.zero, env.one⟩, 1, .round⟩ } b!"stroke"

/-- Well-formed markup. -/
inductive Content (env : Env F) : Style F → List UInt8 → List (UInt8 × Style F) → Prop
  | nil (st) : Content env st [] []
  | char {st m o} (c : UInt8) (hc : c ≠ c!"<") (hf : c ≠ 0xFF) (h : Content env st m o) :
      Content env st (c :: m) ((c, st) :: o)
  | comment {st m o} (body : List UInt8) (hb : ∀ c ∈ body, c ≠ c!"-" ∧ c ≠ 0xFF)
      (h : Content env st m o) : Content env st (b!"<!--" ++ body ++ b!"-->" ++ m) o
  | uc {st m o} (h : Content env st m o) : Content env st (b!"<uc>" ++ m) o
  | uppercase {st m o} (h : Content env st m o) : Content env st (b!"<uppercase>" ++ m) o
  | tag {st st' op close inner m oi o} (ht : Tag env st op st' close)
      (hi : Content env st' inner oi) (h : Content env st m o) :
      Content env st (op ++ inner ++ b!"</" ++ close ++ b!">" ++ m) (oi ++ o)

/-- A whole text: well-formed markup up to its end or to the first byte 0xFF
(never part of UTF-8; the parser takes it for the end of the text). -/
def Document (env : Env F) (st : Style F) (text : List UInt8) (o : List (UInt8 × Style F)) : Prop :=
  ∃ m, (text = m ∨ ∃ junk, text = m ++ 0xFF :: junk) ∧ Content env st m o

/-- The formatting outside all tags. -/
def baseStyle (font : Font) (color : Color F) (stroke : StrokeState F) : Style F :=
  ⟨font, color, stroke, fun _ => false⟩

/-- A font put together from a family, one of the weights, a style and a size. -/
def ProperFont (f : Font) : Prop := ∃ fam w st z, w.toNat < 16 ∧ f = Font.make fam w st z

/-- Every value of a `weight` attribute fits the parser's buffer of 16 bytes. -/
def WeightsFit (l : List UInt8) : Prop :=
  ∀ v, b!"weight=\"" ++ v ++ b!"\"" <:+: l → Quoted v → v.length ≤ 16

/-- No channel of an `rgb(...)` colour has three digits. -/
def ShortChannels (l : List UInt8) : Prop :=
  ∀ u d, b!"rgb(" ++ u ++ d <:+: l →
    (∀ c ∈ u, (c = 32 ∨ c = 9 ∨ c = 13 ∨ c = 10) ∨ (48 ≤ c ∧ c ≤ 57) ∨ c = c!",") →
    (∀ c ∈ d, 48 ≤ c ∧ c ≤ 57) → d.length < 3

/-- Markup on which no buffer is overrun.  `env.past = none` means that reading
the byte after `numberBuffer` is not allowed. -/
def Safe (env : Env F) (l : List UInt8) : Prop :=
  WeightsFit l ∧ (env.past = none → ShortChannels l)

end RichText.Spec

namespace RichText
variable {F : Type _}

/-- A run list for a text of `len` bytes: not empty, as many values as limits,
limits that are not negative and never decrease, the last one `len`. -/
def RunsFit {α : Type _} (r : ValueRuns α) (len : Nat) : Prop :=
  r.limits ≠ [] ∧ r.values.length = r.limits.length ∧ r.limits.Pairwise (· ≤ ·) ∧ (∀ l ∈ r.limits, 0 ≤ l) ∧
    r.limits.getLast? = some (len : Int)

/-- All eight run lists fit. -/
def AllRunsFit (r : FormattingRuns F) (len : Nat) : Prop :=
  RunsFit r.font len ∧ RunsFit r.color len ∧ RunsFit r.stroke len ∧ ∀ k, RunsFit (r.flags k) len

end RichText
