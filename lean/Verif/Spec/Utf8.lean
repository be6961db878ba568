/-!
Valid UTF-8, by Lean's own encoder.
-/
namespace RichText

/-- The UTF-8 form of characters. -/
def encode (cs : List Char) : List UInt8 := cs.flatMap String.utf8EncodeChar

/-- The bytes are the UTF-8 form of some characters. -/
def ValidUtf8 (l : List UInt8) : Prop := ∃ cs, l = encode cs

/-- A byte inside a character, behind its first one. -/
def isTrailByte (b : UInt8) : Prop := 0x80 ≤ b ∧ b < 0xC0

instance (b : UInt8) : Decidable (isTrailByte b) := by unfold isTrailByte; infer_instance

end RichText
