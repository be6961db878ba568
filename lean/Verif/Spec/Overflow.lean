import Verif.Spec.Paragraph
/-!
Notions for stating when the widths and positions of a paragraph stay in the range of `int32_t`.
-/
namespace RichText
variable {β φ : Type _}

/-- `x` lies between `-B` and `B`. -/
def Abs (B x : Int) : Prop := -B ≤ x ∧ x ≤ B

/-- HarfBuzz's advances and offsets and the advances of blanks are at most `m`. -/
structure ParaEnv.Within (e : ParaEnv β φ) (m : Int) : Prop where
  glyph : ∀ f v a b, a < b → ∀ g ∈ e.shape f v a b, Abs m g.xAdvance ∧ Abs m g.yAdvance ∧ Abs m g.xOffset ∧ Abs m g.yOffset
  space : ∀ f, Abs m (e.spaceAdvance f)

/-- Tabs are white space, and a line may be broken behind each (ICU gives tabs the line breaking class BA; not so in front
of a closing parenthesis, a quotation mark and the like). -/
def LineEnv.BreaksAfterTabs (e : LineEnv) : Prop :=
  ∀ c, e.start ≤ c → e.isTab c = true → e.hangs (c - e.start) = true ∧
    ∀ j : Nat, c - e.start + 1 < j → ((c - e.start + 1 : Nat) : Int) ≤ e.preceding j

/-- Tabs that are at first at most `w` wide stay at most `W` wide: there are none; or the tab width in pixels is at most
half of `W`; or it is at most `q` blanks and `W` is `2 q w` without line breaks and `(2 q)³ w` with line breaks. -/
def LineEnv.TabsBelow (e : LineEnv) (w W : Int) : Prop :=
  0 ≤ W ∧ W ≤ 2147483647 ∧ ((∀ c, e.isTab c = false) ∨ (e.tabPixels = true ∧ Abs W (2 * e.tabWidth)) ∨
    (e.tabPixels = false ∧ ∃ q : Int, 0 < q ∧ Abs (64 * q) e.tabWidth ∧
      ((e.area = 0 ∧ 2 * q * w ≤ W) ∨ (e.BreaksAfterTabs ∧ 2 * q * (2 * q * (2 * q * w)) ≤ W))))

/-- The glyphs of the paragraph and one more, `3 m` each, and its tabs, `W` more each, are together at most as wide as the greatest
number of 32 bits. -/
def ParaEnv.Fits (e : ParaEnv β φ) (calls : List (Nat × β)) (m W : Int) : Prop :=
  ∀ b, shapeParagraph e calls = some b →
    ((b.glyphs.length : Int) + 1) * (3 * m) + (b.charIdx.countP e.line.isTab : Int) * W ≤ 2147483647

/-- Sum of the widths of the glyphs of a line, those whose characters are between its ends. -/
def BrokenLine.extent (l : BrokenLine) (charIdx : List Nat) : Int :=
  sumAt l.widths ((List.range charIdx.length).filter fun i =>
    decide (l.first ≤ charIdx.getD i 0) && decide (charIdx.getD i 0 < l.stop))

/-- In the range of `int32_t`. -/
def InRange (x : Int) : Prop := -2147483648 ≤ x ∧ x ≤ 2147483647

/-- What a shaped paragraph holds is in range. -/
def Shaped.InRange (b : Shaped φ) : Prop :=
  (∀ w ∈ b.widths, RichText.InRange w) ∧ (∀ s ∈ b.secondary, RichText.InRange s) ∧ RichText.InRange b.cursor

end RichText
