import Verif.Model.IcuBuilder
import Verif.Spec.RefBuilder
/-!
Notions for comparing the layout builder with the builder for UTF-16 text of the tests.
-/
namespace RichText
variable {β φ : Type _}

/-- A paragraph separator at the start of `sep ++ rest`: line feed, line separator, paragraph separator, carriage return
with or, if no line feed follows, without line feed. -/
inductive Separator16 : List Nat → List Nat → Prop
  | lf (rest : List Nat) : Separator16 [0x000A] rest
  | ls (rest : List Nat) : Separator16 [0x2028] rest
  | ps (rest : List Nat) : Separator16 [0x2029] rest
  | crlf (rest : List Nat) : Separator16 [0x000D, 0x000A] rest
  | cr {rest : List Nat} : rest.head? ≠ some 0x000A → Separator16 [0x000D] rest

/-- No code unit is one of a separator. -/
def Plain16 (a : List Nat) : Prop := ∀ c ∈ a, c ≠ 0x000A ∧ c ≠ 0x000D ∧ c ≠ 0x2028 ∧ c ≠ 0x2029

/-- The text `s` consists of paragraphs with the lengths and separators `l`; behind the last separator there is one more,
maybe empty. -/
inductive Segments16 : List Nat → List (Nat × Nat) → Prop
  | last {a : List Nat} : Plain16 a → Segments16 a [(a.length, 0)]
  | cons {a sep rest : List Nat} {l : List (Nat × Nat)} : Plain16 a → Separator16 sep rest → Segments16 rest l →
      Segments16 (a ++ (sep ++ rest)) ((a.length + sep.length, sep.length) :: l)

/-- A place where a line may start or end: an end of the paragraph, what the break iterator returns, or the first
character of a glyph. -/
def ParaEnv.Cut (e : ParaEnv β φ) (qs : List (Sub β φ)) (x : Nat) : Prop :=
  x = e.line.start ∨ x = e.line.start + e.line.length ∨ (∃ i, (x : Int) = e.line.preceding i + e.line.start) ∨
    ∃ q ∈ qs, ∃ g ∈ e.shape q.font q.args q.first q.stop, x = g.cluster + q.first

/-- `preceding` of the index after the first code unit of a character is that of the index after the character: all
characters have one code unit, or there are no breaks in front of those that have two. -/
def ParaEnv.Units (e : ParaEnv β φ) : Prop :=
  ∀ j, j < e.line.length → e.line.preceding (j + 1) = e.line.preceding (e.line.next j)

/-- What the builder for UTF-16 text takes for granted: the break iterator returns the end for an index past it; no two
glyphs of a part have the same first character; in right-to-left parts there is a glyph for the first character, and for
each character at which the bidi algorithm starts a run of a line. -/
structure IcuSafe (e : ParaEnv β φ) (qs : List (Sub β φ)) : Prop where
  units : e.Units
  atEnd : e.line.preceding (e.line.length + 1) = e.line.length
  clusters : ∀ q ∈ qs, (e.shape q.font q.args q.first q.stop).Pairwise (fun g h => g.cluster ≠ h.cluster)
  first : ∀ q ∈ qs, e.reversed q.args = true → ∃ g ∈ e.shape q.font q.args q.first q.stop, g.cluster = 0
  starts : ∀ s t, e.Cut qs s → e.Cut qs t → s < t → ∀ r ∈ e.bidi s t, ∀ q ∈ qs, e.reversed q.args = true →
    q.first ≤ r.offset → r.offset < q.stop → ∃ g ∈ e.shape q.font q.args q.first q.stop, g.cluster + q.first = r.offset

/-- The same text for both builders: where the layout builder adds an empty line behind a final separator, the other one
has one more, empty paragraph, with the font of the last. -/
inductive SameText : List (Paragraph β φ) → List (RefPara β φ) → Prop
  | last {p : Paragraph β φ} {p' : RefPara β φ} : p.separator = 0 → SamePara p p' → SameText [p] [p']
  | final {p : Paragraph β φ} {p' f : RefPara β φ} : 0 < p.separator → SamePara p p' → f.length = 0 →
      f.defaultFont = p.defaultFont → f.defaultMetrics = p.defaultMetrics → SameText [p] [p', f]
  | cons {p : Paragraph β φ} {p' : RefPara β φ} {t : List (Paragraph β φ)} {t' : List (RefPara β φ)} :
      SamePara p p' → SameText t t' → SameText (p :: t) (p' :: t')

end RichText
