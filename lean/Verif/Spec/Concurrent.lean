import Verif.Model.Concurrent
import Verif.Spec.FontRegistry
/-!
Programs that use the registry as its functions ask for it.
-/
namespace RichText

variable {α : Type}

/-- What a registry can become by anybody's registrations, while the handles have room. -/
def Registry.Later (lib : FontLib) (r r' : Registry) : Prop := Registry.Steps lib r r' ∧ r'.Fits

/-- A program that calls the functions with the arguments they ask for, whatever the other threads register in between: initialised
families, weights in range, faces of the registry, sizes and scripts in range.  The program may rely on what the calls before have
answered.  `r` is a registry that is known to have been there. -/
def Prog.Safe (lib : FontLib) : Prog α → Registry → Prop
  | .done _, _ => True
  | .getFamily n k, r => ∀ r', r.Later lib r' → (k (r'.getFamily n)).Safe lib r'
  | .getFace h w s k, r => r.IsInit h ∧ w < 9 ∧ ∀ r' f, r.Later lib r' → r'.faceOf h w s = some f →
      f.handle.toNat < r'.faces.length → (k f).Safe lib r'
  | .getData q k, r => q.face.handle.toNat < r.faces.length ∧ q.effective ≠ none ∧
      ∀ r' d, r.Later lib r' → (k d).Safe lib r'
  | .getSubFont a k, r => r.IsInit a.font.face.getFamily ∧ a.font.face.getWeight.toNat < 9 ∧ a.font.size.toNat < 2 ^ 32 - 128 ∧
      0 ≤ a.script ∧ a.script.toNat < lib.codeLimit ∧
      ∀ r' x, r.Later lib r' → x.1.face.handle.toNat < r'.faces.length → (k x).Safe lib r'
  | .register i k, r => (∀ s ∈ i.scripts, 0 ≤ s ∧ s.toNat < lib.codeLimit) ∧
      (∀ is, i.faces = some is → is ≠ [] ∧ ∀ x ∈ is, x.weight.toNat < 9) ∧
      ∀ r' e, r.Later lib r' → (e ≠ .noFaces → r'.IsInit (r'.getFamily i.name)) → (k e).Safe lib r'

end RichText
