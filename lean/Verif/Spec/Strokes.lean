import Verif.Model.Strokes
/-!
Notions for stating which objects of FreeType are left behind.
-/
namespace RichText

/-- Addresses are different and were given out. -/
structure FtHeap.WF (s : FtHeap) : Prop where
  nodup : (s.live.map (·.id)).Nodup
  given : ∀ o ∈ s.live, o.id < s.next

/-- From one state to another exactly the objects `l` have been added. -/
structure FtHeap.Adds (s s' : FtHeap) (l : List FtObj) : Prop where
  wf : s'.WF
  live : s'.live.Perm (l ++ s.live)

/-- The data is there: the slot was not written to since, or the object was not given back. -/
def FtData.There (s : FtHeap) : FtData → Prop
  | .slot f stamp => (s.slot f).stamp = stamp
  | .obj o => o ∈ s.live

/-- A functor is defined whenever its data is there, and leaves exactly `n` glyphs behind. -/
def FtUse.Leaves (f : FtUse) (n : Nat) : Prop :=
  ∀ s d, s.WF → d.There s → ∃ s' l, f s d = some s' ∧ s.Adds s' l ∧ l.length = n ∧ ∀ o ∈ l, o.kind = .outlineGlyph

/-- FreeType can do what the request needs: glyphs themselves need nothing; strokes need a glyph that loads and can be
stroked, and rendered if it is drawn as a bitmap. -/
def DrawRequest.Possible (lib : StrokeLib) : DrawRequest → Prop
  | .glyph _ _ _ => True
  | .curve _ _ _ => True
  | .stroke a g t _ => lib.loads a g = true ∧ lib.strokes a g t = true ∧ lib.renders a g t = true
  | .strokeCurve a g t _ => lib.loads a g = true ∧ lib.strokes a g t = true

/-- The face of a request. -/
def DrawRequest.face : DrawRequest → Nat
  | .glyph a _ _ => a
  | .curve a _ _ => a
  | .stroke a _ _ _ => a
  | .strokeCurve a _ _ _ => a

/-- The request is for a stroke. -/
def DrawRequest.isStroke : DrawRequest → Bool
  | .glyph _ _ _ => false
  | .curve _ _ _ => false
  | .stroke _ _ _ _ => true
  | .strokeCurve _ _ _ _ => true

end RichText
