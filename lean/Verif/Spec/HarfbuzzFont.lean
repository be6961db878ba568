import Verif.Model.HarfbuzzFont
import Verif.Spec.FontRegistry
/-!
Notions for stating what HarfBuzz is told about a font: what a cache may do,
histories of a thread, rounding of advances.
-/
namespace RichText

/-- What is asked of the advance cache: after a clear it has nothing, and it only
ever returns a value that was put in for that key.  It may forget. -/
structure AdvCache.Sound {κ : Type} (C : AdvCache κ) : Prop where
  clear : ∀ k, C.get C.clear k = none
  set : ∀ c k v k' w, C.get (C.set c k v) k' = some w → (k' = k ∧ w = v) ∨ C.get c k' = some w

/-- What one thread can see: registrations by anybody, requests for font data,
requests for advances. -/
inductive HbRun {κ : Type} (C : AdvCache κ) (F : FreeType) (lib : FontLib) : Registry → HbThread κ → Prop
  | start {r : Registry} : r.Reached lib → HbRun C F lib r .init
  | register {r r' : Registry} {t : HbThread κ} {info : FamilyInfo} {e : RegistryError} : HbRun C F lib r t →
      r.register lib info = some (r', e) → HbRun C F lib r' t
  | fontData {r : Registry} {t t' : HbThread κ} {q : FontRequest} {d : Option FontDataInfo} : HbRun C F lib r t →
      hbGetFontData C F lib r t q = some (t', d) → HbRun C F lib r t'
  | advances {r : Registry} {t t' : HbThread κ} {k : BitVec 16} {gs : List Nat} {as : List Int} : HbRun C F lib r t →
      t.advances C F k gs = some (t', as) → HbRun C F lib r t'

/-- `a` 64ths of a pixel are the advance `v` in 65536ths, rounded to the nearest,
upwards in the middle. -/
def RoundedAdvance (v a : Int) : Prop := 1024 * a - v ≤ 512 ∧ v - 1024 * a < 512

/-- `s` is the size of the em (in 64ths of a pixel) for a scale from font units to
65536ths of these, rounded to the nearest; if it fits into 31 bits. -/
def EmSize (scale upem : Nat) (s : Int) : Prop :=
  scale * upem < 2 ^ 46 → 65536 * s - (scale * upem : Nat) ≤ 32768 ∧ (scale * upem : Nat) - 65536 * s < 32768

/-- HarfBuzz has the scale of the size the FreeType face is set to. -/
def HbOwner.Scaled {κ : Type} (F : FreeType) (o : HbOwner κ) : Prop :=
  EmSize (F.xScale o.ft.file (some o.ft.height)) (F.upem o.ft.file) o.hb.scaleX ∧
  EmSize (F.yScale o.ft.file (some o.ft.height)) (F.upem o.ft.file) o.hb.scaleY

end RichText
