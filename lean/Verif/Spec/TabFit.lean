import Verif.Spec.LineBreak
/-! How wide text is if it is set from the start of a line, with tabs. -/
namespace RichText

/-- Distance of the tab stops for a tab of a blank `w` wide: the tab width, or that many blanks (26.6). -/
def LineEnv.stopDistance (e : LineEnv) (w : Int) : Int := if e.tabPixels then e.tabWidth else w * e.tabWidth / 64

/-- Where the glyph of a character and a width ends if it starts at `x`: a tab goes to the next tab stop. -/
def LineEnv.advanceFrom (e : LineEnv) (x : Int) (g : Nat × Int) : Int :=
  if e.isTab g.1 then (x / e.stopDistance g.2 + 1) * e.stopDistance g.2 else x + g.2

/-- Width of the glyphs whose characters are in `[p, v)`, set from the start of a line. -/
def LineEnv.widthBetween (e : LineEnv) (charIdx : List Nat) (widths : List Int) (p v : Nat) : Int :=
  ((charIdx.zip widths).filter fun x => decide (p ≤ x.1 ∧ x.1 < v)).foldl e.advanceFrom 0

/-- The characters `[p, q)` fit on a line: but for white space and control characters at the end, the glyphs are together not
wider than the area. -/
def LineEnv.FitsIn (e : LineEnv) (isStart : Nat → Prop) (charIdx : List Nat) (widths : List Int) (p q : Nat) : Prop :=
  ∃ v, v ≤ q ∧ (∀ c, isStart c → v ≤ e.start + c → e.start + c < q → e.hangs c = true) ∧
    e.widthBetween charIdx widths p v ≤ e.area

/-- If tabs are as wide as a number of blanks: behind each tab there is a break opportunity with only hanging characters in
between, and the cluster in front of a tab has one glyph.  (Otherwise the code may look at a tab twice, and takes the width it gave
it the first time for that of a blank, C33.) -/
def LineEnv.TabsOnce (e : LineEnv) (isStart isBreak : Nat → Prop) (charIdx : List Nat) : Prop :=
  e.tabPixels = false →
    (∀ c ∈ charIdx, e.isTab c = true → ∃ b, isBreak b ∧ c < e.start + b ∧
      ∀ k, isStart k → c ≤ e.start + k → k < b → e.hangs k = true) ∧
    ∀ k c t, charIdx[k]? = some c → charIdx[k + 1]? = some c → charIdx[k + 2]? = some t → e.isTab t = false

end RichText
