import Verif.Spec.LineBreak
/-!
Notions for stating what the visual runs of a line are.
-/
namespace RichText
variable {β φ : Type _}

/-- Range of characters of a visual run. -/
def VisualPiece.range (p : VisualPiece) : Nat × Nat := (p.first, p.last + 1)

/-- Range of characters of a bidi run. -/
def BidiRun.range (r : BidiRun) : Nat × Nat := (r.offset, r.offset + r.length)

/-- The level is odd. -/
def BidiRun.rtl (r : BidiRun) : Bool := decide (r.level % 2 = 1)

/-- The ranges of `l`, put in some order, follow each other without gap from `s`
to `e`, none is empty: every index in `[s, e)` is in exactly one of them. -/
def Partition {α : Type _} (range : α → Nat × Nat) (s e : Nat) (l : List α) : Prop :=
  ∃ l' : List α, l'.Perm l ∧ Consecutive e s (l'.map range)

/-- First character of logical run `k` of a paragraph starting at `s`. -/
def runStart (s : Nat) (runs : List (LogicalRun φ)) : Nat → Nat
  | 0 => s
  | k + 1 => ((runs[k]?).map (·.charEnd)).getD s

/-- First glyph of logical run `k`. -/
def runFirstGlyph (runs : List (LogicalRun φ)) : Nat → Nat
  | 0 => 0
  | k + 1 => ((runs[k]?).map (·.glyphEnd)).getD 0

/-- The logical runs divide the characters from `s` to `e` into non-empty parts
and the glyphs from 0 to `n` into parts. -/
structure LogicalRuns (s e n : Nat) (runs : List (LogicalRun φ)) : Prop where
  nonempty : runs ≠ []
  chars : ∀ (k : Nat) (r : LogicalRun φ), runs[k]? = some r → runStart s runs k < r.charEnd
  lastChar : (runs.getLast?.map (·.charEnd)) = some e
  glyphs : ∀ (k : Nat) (r : LogicalRun φ), runs[k]? = some r → runFirstGlyph runs k ≤ r.glyphEnd
  lastGlyph : (runs.getLast?.map (·.glyphEnd)) = some n

/-- A visual run lies inside its logical run. -/
def VisualPiece.Inside (s : Nat) (runs : List (LogicalRun φ)) (p : VisualPiece) : Prop :=
  p.first ≤ p.last ∧ runStart s runs p.run ≤ p.first ∧ ∃ r : LogicalRun φ, runs[p.run]? = some r ∧ p.last < r.charEnd

/-- A shaped paragraph from `s` to `e`: one character index and width per glyph,
one more secondary position, the characters in logical order, those of the glyphs
of a logical run inside it. -/
structure ShapedOK (s e : Nat) (b : Shaped φ) : Prop where
  charIdx : b.charIdx.length = b.glyphs.length
  widths : b.widths.length = b.glyphs.length
  secondary : b.secondary.length = b.glyphs.length + 1
  sorted : b.charIdx.Pairwise (· ≤ ·)
  runs : LogicalRuns s e b.glyphs.length b.runs
  inside : ∀ (k : Nat) (r : LogicalRun φ) (i c : Nat), b.runs[k]? = some r → runFirstGlyph b.runs k ≤ i → i < r.glyphEnd →
    b.charIdx[i]? = some c → runStart s b.runs k ≤ c ∧ c < r.charEnd

/-- The glyph `i` belongs to the visual run `p`: its character does. -/
def Shaped.Has (b : Shaped φ) (p : VisualPiece) (i : Nat) : Prop :=
  ∃ c, b.charIdx[i]? = some c ∧ p.first ≤ c ∧ c ≤ p.last

/-- `idx` are the glyphs of the visual run `p`, in logical order if it is
left-to-right, in reverse order if it is right-to-left. -/
structure Shaped.Lists (b : Shaped φ) (p : VisualPiece) (idx : List Nat) : Prop where
  mem : ∀ i, i ∈ idx ↔ b.Has p i
  order : if p.rtl then idx.Pairwise (· > ·) else idx.Pairwise (· < ·)

/-- Sum of the widths of the glyphs listed. -/
def sumAt (ws : List Int) (idx : List Nat) : Int := (idx.map fun i => ws.getD i 0).sum

/-- `op` appends the visual run `p` with the glyphs `idx` behind glyphs `before` of
the line: ids and characters of the glyphs, positions the sums of the widths of
all glyphs before, in 1/64. -/
structure RunOp (b : Shaped φ) (ws : List Int) (vertical : Bool) (p : VisualPiece) (before idx : List Nat)
    (op : LayoutOp φ) : Prop where
  intro ::
  op : ∃ (r : LogicalRun φ) (gs : List GlyphSpec) (s : Int), b.runs[p.run]? = some r ∧
    op = .run r.font gs (placeAt vertical (sumAt ws (before ++ idx)) s).1
      (placeAt vertical (sumAt ws (before ++ idx)) s).2 p.first (p.last + 1) p.rtl ∧
    gs.length = idx.length ∧
    (∃ k : Nat, b.secondary[k]? = some s ∧ (∀ i, i ∈ idx → i < k) ∧ (idx = [] ∨ ∃ i, i ∈ idx ∧ k = i + 1)) ∧
    ∀ (j i : Nat), idx[j]? = some i → ∃ g c s,
      b.glyphs[i]? = some g ∧ b.charIdx[i]? = some c ∧ b.secondary[i]? = some s ∧
      gs[j]? = some (⟨g, c, (placeAt vertical (sumAt ws (before ++ idx.take j)) s).1,
        (placeAt vertical (sumAt ws (before ++ idx.take j)) s).2⟩ : GlyphSpec)

/-- The calls `ops` append the visual runs `ps` of a line, with the glyphs `idx`,
behind the glyphs `before` of the line. -/
def RunOps (b : Shaped φ) (ws : List Int) (vertical : Bool) :
    List Nat → List VisualPiece → List (List Nat) → List (LayoutOp φ) → Prop
  | _, [], [], [] => True
  | before, p :: ps, i :: is, op :: ops =>
    b.Lists p i ∧ RunOp b ws vertical p before i op ∧ RunOps b ws vertical (before ++ i) ps is ops
  | _, _, _, _ => False

/-! ### Shaping -/

/-- The contracts of the font registry and HarfBuzz for shaping the characters
from `start` to `stop`: a sub font covers at least one and at most the characters
asked for; clusters are characters of the text shaped, ascending for
left-to-right, descending for right-to-left text (cluster level "monotone
characters"). -/
structure ShapeEnv.Contract (e : ShapeEnv β φ) : Prop where
  subFont : ∀ v offset limit, offset < limit → offset < (e.subFont v offset limit).2 ∧
    (e.subFont v offset limit).2 ≤ limit
  cluster : ∀ f v a b, a < b → ∀ g ∈ e.shape f v a b, g.cluster < b - a
  order : ∀ f v a b, a < b →
    if e.reversed v then (e.shape f v a b).Pairwise (fun g h => h.cluster ≤ g.cluster)
    else (e.shape f v a b).Pairwise (fun g h => g.cluster ≤ h.cluster)

/-- The calls of `iterate_run_intersections` for a paragraph ending at `stop`:
ascending limits, the last one the end (C05, C35). -/
structure CallsTo (stop : Nat) (calls : List (Nat × β)) : Prop where
  sorted : calls.Pairwise (fun a b => a.1 ≤ b.1)
  last : calls.getLast?.map (·.1) = some stop

/-- A piece of text with the font resolved for it. -/
structure FontPiece (φ : Type _) where
  font : φ
  first : Nat
  stop : Nat

/-- Range of characters. -/
def FontPiece.range (q : FontPiece φ) : Nat × Nat := (q.first, q.stop)

/-- The font of a piece is the one resolved, at its start, with the values passed
by the first call that goes beyond its start; the piece is what the registry says
the font covers. -/
def FontPiece.Resolved (e : ShapeEnv β φ) (calls : List (Nat × β)) (q : FontPiece φ) : Prop :=
  ∃ before limit v after, calls = before ++ (limit, v) :: after ∧ (∀ c ∈ before, c.1 ≤ q.first) ∧
    q.first < limit ∧ e.subFont v q.first limit = (q.font, q.stop)

end RichText
