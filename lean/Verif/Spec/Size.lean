import Verif.Spec.Paragraph
/-!
How much HarfBuzz may answer.
-/
namespace RichText
variable {β φ : Type _}

/-- HarfBuzz makes at most `k` glyphs per byte. -/
def ParaEnv.Thin (e : ParaEnv β φ) (k : Nat) : Prop :=
  ∀ f v a b, a < b → (e.shape f v a b).length ≤ k * (b - a)

/-- The same for each paragraph with text. -/
def Thin (k : Nat) (ps : List (Paragraph β φ)) : Prop := ∀ p ∈ ps, 0 < p.length - p.separator → p.env.Thin k

end RichText
