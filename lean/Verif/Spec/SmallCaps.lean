import Verif.Model.SmallCaps
/-!
Notions for stating which character of the text a glyph of its upper case form
comes from.
-/
namespace RichText

/-- A character of the text and what it becomes in upper case, as bytes. -/
structure Cased where
  lower : List Nat
  upper : List Nat
deriving Repr, DecidableEq

/-- The text is well-formed: the bytes are the UTF-8 form of a character. -/
def Cased.WellFormed (p : Cased) : Prop := ∃ c : Char, p.lower = (String.utf8EncodeChar c).map UInt8.toNat

/-- The text. -/
def lowerText (l : List Cased) : List Nat := l.flatMap Cased.lower

/-- The text in upper case. -/
def upperText (l : List Cased) : List Nat := l.flatMap Cased.upper

/-- First byte of the character whose upper case form contains byte `i` of the upper case text. -/
def origin : List Cased → Nat → Nat
  | [], _ => 0
  | p :: t, i => if i < p.upper.length then 0 else p.lower.length + origin t (i - p.upper.length)

/-- ICU's record of the conversion: a span for every character that changes, characters that do not
change may share one. -/
inductive Records : List Cased → List Edit → Prop
  | nil : Records [] []
  | change (p : Cased) {l : List Cased} {es : List Edit} : Records l es →
      Records (p :: l) (⟨p.lower.length, p.upper.length⟩ :: es)
  | keep (qs : List Cased) {l : List Cased} {es : List Edit} : (∀ q ∈ qs, q.upper = q.lower) → Records l es →
      Records (qs ++ l) (⟨(lowerText qs).length, (upperText qs).length⟩ :: es)

/-- No character changes its length. -/
def SameLength (l : List Cased) : Prop := ∀ p ∈ l, p.upper.length = p.lower.length

end RichText
