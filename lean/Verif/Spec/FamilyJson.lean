import Verif.Model.FamilyJson
import Verif.Spec.FontRegistry
import Mathlib.Data.List.Forall2
/-!
What a JSON document says about a font family.
-/
namespace RichText

/-- The name of a style. -/
def FontStyle.word : FontStyle → String
  | .normal => "normal"
  | .italic => "italic"

/-- The value describes the face: an object with name, file, weight (100 to 900)
and style. -/
structure DescribesFace (v : Json) (i : FaceInfo) : Prop where
  weight : i.weight.toNat < 9
  fields : ∃ fs : List (String × Json), v = .obj fs ∧ fs.lookup "name" = some (.str i.name) ∧ fs.lookup "uri" = some (.str i.uri) ∧
    fs.lookup "weight" = some (.int (100 * (i.weight.toNat + 1))) ∧ fs.lookup "style" = some (.str i.style.word)

/-- The field lists the names; without an array there are none. -/
def ListsNames (fs : List (String × Json)) (field : String) (names : List String) : Prop :=
  fs.lookup field = some (.arr (names.map .str)) ∨ (¬ ∃ vs, fs.lookup field = some (.arr vs)) ∧ names = []

/-- The value means the script: its number, or a name ICU knows. -/
def MeansScript (scriptOf : String → ScriptCode) (v : Json) (c : Int) : Prop :=
  v = .int c ∨ ∃ s, v = .str s ∧ scriptOf s = .code c

/-- The codes are those listed, each once, in ascending order; without an array
there are none. -/
def ListsScripts (limit : Nat) (scriptOf : String → ScriptCode) (fs : List (String × Json)) (codes : List Int) : Prop :=
  (∃ vs, fs.lookup "scripts" = some (.arr vs) ∧ (∀ v ∈ vs, ∃ c : Int, 0 ≤ c ∧ c < limit ∧ MeansScript scriptOf v c) ∧
    (∀ c, c ∈ codes ↔ ∃ v ∈ vs, MeansScript scriptOf v c) ∧ codes.Pairwise (· < ·)) ∨
  (¬ ∃ vs, fs.lookup "scripts" = some (.arr vs)) ∧ codes = []

/-- The document describes the family. -/
def Describes (limit : Nat) (scriptOf : String → ScriptCode) (doc : Option Json) (info : FamilyInfo) : Prop :=
  ∃ fs, doc = some (.obj fs) ∧ fs.lookup "name" = some (.str info.name) ∧ ListsScripts limit scriptOf fs info.scripts ∧
    ListsNames fs "linked_families" info.linked ∧ ListsNames fs "fallback_families" info.fallback ∧
    ∃ vs faces, fs.lookup "faces" = some (.arr vs) ∧ List.Forall₂ DescribesFace vs faces ∧
      (faces = [] ∧ info.faces = none ∨ faces ≠ [] ∧ info.faces = some faces)

/-- All scripts listed in the document are numbers from 0 on or names for which
ICU has a code or a failure. -/
def SaneScripts (limit : Nat) (scriptOf : String → ScriptCode) (doc : Option Json) : Prop :=
  ∀ fs vs, doc = some (.obj fs) → fs.lookup "scripts" = some (.arr vs) → ∀ v ∈ vs,
    (∀ n, v = .int n → 0 ≤ n) ∧
    ∀ s, v = .str s → scriptOf s = .failure ∨ ∃ c : Int, 0 ≤ c ∧ c < limit ∧ scriptOf s = .code c

end RichText
