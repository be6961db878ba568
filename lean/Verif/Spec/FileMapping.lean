import Verif.Model.FileMapping
/-!
Notions for stating who owns the mappings of font files.
-/
namespace RichText
variable {ρ : Type}

/-- The resources of a mapping; none if it is null. -/
def ownedBy (owns : FileMapping → List Res) (m : FileMapping) : List Res := if m.mapping.isSome then owns m else []

/-- How functions for mapping files treat resources: a mapping takes `owns m`, if it is not null,
and `lost r`; unmapping gives back what the mapping has taken, so `lost r` is never given back. -/
structure FileFuncs.Owns (f : FileFuncs ρ) (owns : FileMapping → List Res) (lost : ρ → List Res) : Prop where
  map : ∀ r os, (f.map r os).1.Perm (ownedBy owns (f.map r os).2 ++ lost r ++ os)
  unmap : ∀ r os0, (f.map r os0).2.mapping.isSome = true → ∀ os rest, os.Perm (owns (f.map r os0).2 ++ rest) →
    ∃ os', f.unmap (f.map r os0).2 os = some os' ∧ os'.Perm rest

/-- The answers of the operating system for the faces that are registered, i.e. those whose name
is not in `names` and not that of an earlier face. -/
def answers : List String → List (String × ρ × Nat) → List ρ
  | _, [] => []
  | names, (n, r, _) :: t => if n ∈ names then answers names t else r :: answers (n :: names) t

/-- Registering faces. -/
def adds (l : List (String × ρ × Nat)) : List (FaceOp ρ) := l.map fun x => .add x.1 x.2.1 x.2.2

/-- No faces yet. -/
def FaceStore.start (f : FileFuncs ρ) (os : Os) : FaceStore ρ := ⟨{}, [], f, os⟩

/-- What `open` gave is lost when `fstat` or `mmap` fails. -/
def LinuxReply.lost (r : LinuxReply) : List Res :=
  match r.fd with
  | none => []
  | some fd => if r.size.isSome ∧ r.address.isSome then [] else [.file fd]

end RichText
