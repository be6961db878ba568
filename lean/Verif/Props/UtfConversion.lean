import Verif.Proof.UtfConversion
/-!
C115: indices and layouts of UTF-16 text in its UTF-8 form.

The texts are all strings of Unicode characters, in UTF-16 by the definition of the standard (`encode16`) and in UTF-8 by Lean's
encoder (`encode`).  Heights of lines are exact numbers.
-/
namespace RichText

/-- The text of the examples: one byte and one unit, two and one, three and one, four and two, and a line separator. -/
def utfText : List Char := ['a', 'é', '€', '😀', ' ', 'z']

example : encode16 utfText = [0x61, 0xE9, 0x20AC, 0xD83D, 0xDE00, 0x2028, 0x7A] := by decide +kernel
example : encode utfText = [0x61, 0xC3, 0xA9, 0xE2, 0x82, 0xAC, 0xF0, 0x9F, 0x98, 0x80, 0xE2, 0x80, 0xA8, 0x7A] := by
  decide +kernel

/-- Both functions turn the index of a character in one form of a text into its index in the other form, whatever the text. -/
theorem C115_index {text : List Char} {p q : Nat} (h : SamePlace text p q) :
    utf16IndexToUtf8 (encode16 text) (encode text) p = some q ∧ utf8IndexToUtf16 (encode text) (encode16 text) q = some p := by
  refine ⟨utf16Index_same h, ?_⟩
  obtain ⟨a, b, rfl, rfl, rfl⟩ := h
  have := utf8IndexFrom_to [] a b (encode a).length (Nat.le_refl _) fun h => dropLast_shorter h
  simp only [List.nil_append] at this
  unfold utf8IndexToUtf16
  rw [show utf8IndexFrom (encode (a ++ b)) (encode16 (a ++ b)) (encode a).length 0 0 = _ from this]
  rfl

/-- The line separator. -/
example : SamePlace utfText 5 10 := ⟨utfText.take 4, utfText.drop 4, rfl, by decide +kernel, by decide +kernel⟩
example : utf16IndexToUtf8 (encode16 utfText) (encode utfText) 5 = some 10 := by decide +kernel

/-- With counters: from any character on, they stop in front of the first character that is not before the index asked for (an
index inside of a character is moved behind it), and both count the same characters. -/
theorem C115_counters (a mid b : List Char) (target : Nat) :
    (target ≤ (encode16 (a ++ mid)).length → (mid ≠ [] → (encode16 (a ++ mid.dropLast)).length < target) →
      utf16IndexFrom (encode16 (a ++ (mid ++ b))) (encode (a ++ (mid ++ b))) target (encode16 a).length (encode a).length =
        some ((encode16 (a ++ mid)).length, (encode (a ++ mid)).length)) ∧
    (target ≤ (encode (a ++ mid)).length → (mid ≠ [] → (encode (a ++ mid.dropLast)).length < target) →
      utf8IndexFrom (encode (a ++ (mid ++ b))) (encode16 (a ++ (mid ++ b))) target (encode a).length (encode16 a).length =
        some ((encode (a ++ mid)).length, (encode16 (a ++ mid)).length)) :=
  ⟨utf16IndexFrom_to a mid b target, utf8IndexFrom_to a mid b target⟩

/-- From the third character to the index between the surrogates: behind the pair. -/
example : utf16IndexFrom (encode16 utfText) (encode utfText) 4 2 3 = some (5, 10) := by decide +kernel

/-- Indices behind the end of the text are undefined: the loop reads what is behind the text. -/
theorem C115_outside (text : List Char) (target : Nat) :
    ((encode16 text).length < target → utf16IndexToUtf8 (encode16 text) (encode text) target = none) ∧
    ((encode text).length < target → utf8IndexToUtf16 (encode text) (encode16 text) target = none) := by
  constructor
  · intro h
    unfold utf16IndexToUtf8 utf16IndexFrom
    have := walk_out (text := text) (m := fun l => (encode16 l).length) (k := fun l => (encode l).length)
      (f := u16Fwd (encode16 text)) (g := u8Fwd (encode text))
      (fun a' c b' h => by rw [h]; exact u16Fwd_text a' c b') (fun a' c b' h => by rw [h]; exact u8Fwd_text a' c b')
      encode16_snoc_length (u16Fwd_end _) h text [] (target - 0) rfl (Nat.le_refl _)
    rw [show walkBoth (u16Fwd (encode16 text)) (u8Fwd (encode text)) target (target - 0) 0 0 = none from this]
    rfl
  · intro h
    unfold utf8IndexToUtf16 utf8IndexFrom
    have := walk_out (text := text) (m := fun l => (encode l).length) (k := fun l => (encode16 l).length)
      (f := u8Fwd (encode text)) (g := u16Fwd (encode16 text))
      (fun a' c b' h => by rw [h]; exact u8Fwd_text a' c b') (fun a' c b' h => by rw [h]; exact u16Fwd_text a' c b')
      encode_snoc_length (u8Fwd_end _) h text [] (target - 0) rfl (Nat.le_refl _)
    rw [show walkBoth (u8Fwd (encode text)) (u16Fwd (encode16 text)) target (target - 0) 0 0 = none from this]
    rfl

example : utf16IndexToUtf8 (encode16 utfText) (encode utfText) 8 = none := by decide +kernel

variable {φ : Type _}

/-- A layout of the UTF-16 text becomes the same layout of the UTF-8 text: the same glyphs at the same places in the same runs and
lines, with the indices of the same characters, into whatever object the result is written. -/
theorem C115_layout {text : List Char} {src : Layout φ} {ls ls' : List (LineSpec φ)} {y : Rat} (h : Stores src ls [] y)
    (hne : ∀ l ∈ ls, l.runs ≠ []) (hsame : List.Forall₂ (SameLine text) ls ls') (result : Layout φ) :
    ∃ dst, src.convertToUtf8 (encode16 text) (encode text) result = some dst ∧ Stores dst ls' [] y :=
  convertToUtf8_stores h hne hsame result

/-- Two lines: a ligature of the first two characters, the sign and the smiley right-to-left, the separator, the last character. -/
def utfLines16 : List (LineSpec Nat) :=
  [⟨[⟨7, [⟨40, 0, 0, 0⟩], 9, 0, 0, 2, 0, false⟩, ⟨7, [⟨42, 3, 9, 0⟩, ⟨41, 2, 20, 0⟩], 28, 0, 2, 5, 1, true⟩], 12, 10⟩,
    ⟨[⟨8, [⟨43, 6, 0, 0⟩], 5, 0, 6, 7, 0, false⟩], 14, 11⟩]

/-- The same with indices of bytes. -/
def utfLines8 : List (LineSpec Nat) :=
  [⟨[⟨7, [⟨40, 0, 0, 0⟩], 9, 0, 0, 3, 0, false⟩, ⟨7, [⟨42, 6, 9, 0⟩, ⟨41, 3, 20, 0⟩], 28, 0, 3, 10, 3, true⟩], 12, 10⟩,
    ⟨[⟨8, [⟨43, 13, 0, 0⟩], 5, 0, 13, 14, 0, false⟩], 14, 11⟩]

theorem utf_place (n : Nat) : SamePlace utfText (encode16 (utfText.take n)).length (encode (utfText.take n)).length :=
  ⟨utfText.take n, utfText.drop n, (List.take_append_drop n _).symm, rfl, rfl⟩

theorem utf_same : List.Forall₂ (SameLine utfText) utfLines16 utfLines8 := by
  have p0 : SamePlace utfText 0 0 := utf_place 0
  have p2 : SamePlace utfText 2 3 := utf_place 2
  have p3 : SamePlace utfText 3 6 := utf_place 3
  have p4 : SamePlace utfText 5 10 := utf_place 4
  have p5 : SamePlace utfText 6 13 := utf_place 5
  have p6 : SamePlace utfText 7 14 := utf_place 6
  refine .cons ⟨.cons ⟨rfl, .cons ⟨rfl, rfl, rfl, p0⟩ .nil, rfl, rfl, p0, p2, p2, by decide, rfl⟩
    (.cons ⟨rfl, .cons ⟨rfl, rfl, rfl, p3⟩ (.cons ⟨rfl, rfl, rfl, p2⟩ .nil), rfl, rfl, p2, p4, p5, by decide, rfl⟩ .nil),
    rfl, rfl⟩ (.cons ⟨.cons ⟨rfl, .cons ⟨rfl, rfl, rfl, p5⟩ .nil, rfl, rfl, p5, p6, p6, by decide, rfl⟩ .nil, rfl, rfl⟩ .nil)

/-- The layout that stores the lines above. -/
def utfLayout16 : Layout Nat :=
  { runs := [⟨7, 1, 0, 2, 0, false⟩, ⟨7, 3, 2, 5, 1, true⟩, ⟨8, 4, 6, 7, 0, false⟩], lines := [⟨2, 28, 10, 12⟩, ⟨3, 5, 11, 26⟩],
    glyphs := [40, 42, 41, 43], charIdx := [0, 3, 2, 6], pos := [0, 0, 9, 0, 9, 0, 20, 0, 28, 0, 0, 0, 5, 0], startY := 3 }

theorem utf_stores : Stores utfLayout16 utfLines16 [] 3 where
  glyphs := by decide +kernel
  charIdx := by decide +kernel
  pos := by decide +kernel
  runCount := by decide +kernel
  runs := by
    intro i r h
    match i, h with
    | 0, h | 1, h | 2, h => cases h; decide +kernel
    | i + 3, h => cases h
  lineCount := by decide +kernel
  lines := by
    intro i r h
    match i, h with
    | 0, h | 1, h => cases h; decide +kernel
    | i + 2, h => cases h
  startY := rfl

example : utfLayout16.convertToUtf8 (encode16 utfText) (encode utfText) {} =
    some { runs := [⟨7, 1, 0, 3, 0, false⟩, ⟨7, 3, 3, 10, 3, true⟩, ⟨8, 4, 13, 14, 0, false⟩],
           lines := [⟨2, 28, 10, 12⟩, ⟨3, 5, 11, 26⟩], glyphs := [40, 42, 41, 43], charIdx := [0, 6, 3, 13],
           pos := [0, 0, 9, 0, 9, 0, 20, 0, 28, 0, 0, 0, 5, 0], startY := 3 } := by decide +kernel

end RichText
