import Verif.Proof.Shader
import Verif.Props.UIContainer
import Verif.Props.TextAtlas
import Verif.Props.FaceMetrics
/-! Pixels of rectangles, of glyphs and of selected text; the MSDF shader (C110, C111). -/
namespace RichText

/-- Of two triangles on the two sides of an edge one has the points on it: what OpenGL says about centres of pixels on
edges. -/
def FairTie (tie : Pt → Pt → Bool) : Prop := ∀ a b, a ≠ b → tie a b = !tie b a

/-- A rule for the examples: points on upward edges, and on horizontal ones to the left, are inside. -/
def leftRule (a b : Pt) : Bool := decide (a.2 < b.2) || (decide (a.2 = b.2) && decide (b.1 < a.1))

theorem leftRule_fair : FairTie leftRule := by
  intro a b h
  obtain ⟨a1, a2⟩ := a
  obtain ⟨b1, b2⟩ := b
  simp only [leftRule]
  rcases lt_trichotomy a2 b2 with h2 | h2 | h2
  · simp [h2, h2.ne, h2.ne', h2.le]
  · subst h2
    rcases lt_trichotomy a1 b1 with h1 | h1 | h1
    · simp [h1, h1.le]
    · exact absurd (by rw [h1]) h
    · simp [h1, h1.le]
  · simp [h2, h2.ne, h2.ne', h2.le]

theorem floor_le_pixel (x : Rat) (i : Int) : ⌊x⌋ ≤ i ↔ x < i + 1 := by
  rw [← Int.lt_add_one_iff, Int.floor_lt]
  push_cast
  rfl

theorem pixel_lt_floor (x : Rat) (i : Int) : i < ⌊x⌋ ↔ (i : Rat) + 1 ≤ x := by
  rw [← Int.add_one_le_iff, Int.le_floor]
  push_cast
  rfl

/-! ### C110 -/

/-- C110: a rectangle covers, each exactly once, the pixels between its corners rounded down; the texture is stretched evenly
over them.  The diagonal its two triangles have in common is neither missed nor drawn twice, whatever the rule for centres on
edges is. -/
theorem C110_rect (tie : Pt → Pt → Bool) (ht : FairTie tie) (W H : Rat) (hW : 0 < W) (hH : 0 < H) (q : Quad Vec4)
    (hw : 0 ≤ q.width) (hh : 0 ≤ q.height) (i j : Int) :
    quadFragments tie .rect (W, H) (W, H) q i j =
      if ⌊q.x⌋ ≤ i ∧ i < ⌊q.x + q.width⌋ ∧ ⌊q.y⌋ ≤ j ∧ j < ⌊q.y + q.height⌋ then
        [(q.tex.u + q.tex.uw * ((i + 1 / 2 - ⌊q.x⌋) / (⌊q.x + q.width⌋ - ⌊q.x⌋)),
          q.tex.v + q.tex.vh * ((j + 1 / 2 - ⌊q.y⌋) / (⌊q.y + q.height⌋ - ⌊q.y⌋)))]
      else [] := rect_fragments tie ht hW hH q hw hh i j

/-- Two pixels wide and two high, from 3/2 to 7/2; on the diagonal is (2, 1). -/
example : (List.range 5).map (fun i => (List.range 3).map fun j =>
      (quadFragments leftRule .rect (8, 8) (8, 8) ⟨3 / 2, 0, 2, 2, ⟨0, 0, 1, 1⟩, whiteColor⟩ i j)) =
    [[[], [], []], [[(1 / 4, 1 / 4)], [(1 / 4, 3 / 4)], []], [[(3 / 4, 1 / 4)], [(3 / 4, 3 / 4)], []], [[], [], []], [[], [], []]] := by
  decide +kernel

/-- C110: the outline of a rectangle is the closed line through the centres of four pixels: the first pixel of the
rectangle, the pixel behind its upper right corner, the pixels behind its lower corners.  The right and the lower line are
outside the rectangle. -/
theorem C110_outline (W H : Rat) (hW : 0 < W) (hH : 0 < H) (q : Quad Vec4) :
    (List.range 4).map (fun v => toWindow (W, H) (vertexPos .outline (1 / W, 1 / H) q.extents v)) =
      [pixelCentre (W, H) ⌊q.x⌋ ⌊q.y⌋, pixelCentre (W, H) ⌊q.x + q.width⌋ ⌊q.y⌋,
        pixelCentre (W, H) ⌊q.x + q.width⌋ ⌊q.y + q.height⌋, pixelCentre (W, H) ⌊q.x⌋ ⌊q.y + q.height⌋] := by
  have h0 : W ≠ 0 := ne_of_gt hW
  have h1 : H ≠ 0 := ne_of_gt hH
  have e : ∀ i j : Int, toWindow (W, H) (toClip (1 / W, 1 / H) ((i : Rat) + 1 / 2, (j : Rat) + 1 / 2)) =
      pixelCentre (W, H) i j := by
    intro i j
    simp only [toWindow, toClip, pixelCentre, Prod.mk.injEq]
    constructor <;> field_simp <;> ring
  have b0 : outlineBase 0 = (0, 0) := by decide +kernel
  have b1 : outlineBase 1 = (1, 0) := by decide +kernel
  have b2 : outlineBase 2 = (1, 1) := by decide +kernel
  have b3 : outlineBase 3 = (0, 1) := by decide +kernel
  simp only [show List.range 4 = [0, 1, 2, 3] from rfl, List.map_cons, List.map_nil, vertexPos, b0, b1, b2, b3, corner,
    Quad.extents, e, zero_mul, one_mul, zero_add]
  rw [add_comm q.width, add_comm q.height]

example : (List.range 4).map (fun v => toWindow (8, 8) (vertexPos .outline (1 / 8, 1 / 8)
      (⟨3 / 2, 0, 2, 2, unitTex, whiteColor⟩ : Quad Vec4).extents v)) =
    [(3 / 2, 15 / 2), (7 / 2, 15 / 2), (7 / 2, 11 / 2), (3 / 2, 11 / 2)] := by decide +kernel

theorem sampleLinear_centre (extent : Nat) (h : 0 < extent) (texel : Int → Int → Rat) (k l : Int) :
    sampleLinear extent texel (((k : Rat) + 1 / 2) / extent, ((l : Rat) + 1 / 2) / extent) = texel k l := by
  have h' : (extent : Rat) ≠ 0 := by exact_mod_cast h.ne'
  have e : ∀ n : Int, ((n : Rat) + 1 / 2) / extent * extent - 1 / 2 = (n : Rat) := by
    intro n; rw [div_mul_cancel₀ _ h']; ring
  simp only [sampleLinear, e, Int.floor_intCast]
  ring

/-- C110: a glyph drawn from the atlas at any position, also between pixels, shows its bitmap unchanged: the pixels of a
rectangle of its size get the values of the texels of its place, one each, and no other pixel is touched. -/
theorem C110_glyph (tie : Pt → Pt → Bool) (ht : FairTie tie) (W H : Rat) (hW : 0 < W) (hH : 0 < H) (env : RasterEnv)
    (r : AtlasRequest) (ans : GlyphAnswer) (ha : Answered env r ans) (pl : Place) (hp : ans.place = some pl) (x y : Rat)
    (color : Vec4) (texel : Int → Int → Rat) (i j : Int) :
    ((ans.rect.quads x y color none).flatMap fun q => (quadFragments tie .rect (W, H) (W, H) q i j).map
        (sampleLinear 2048 texel)) =
      let k := i - ⌊x + ans.offsetX⌋
      let l := j - ⌊y + ans.offsetY⌋
      if 0 ≤ k ∧ k < (env.raster r).width ∧ 0 ≤ l ∧ l < (env.raster r).height then [texel (pl.x + k) (pl.y + l)] else [] := by
  obtain ⟨h1, h2, -, -, -, -, h7⟩ := ha
  obtain ⟨w1, w2, -⟩ := h7 pl hp
  simp only [GlyphRect.quads, GlyphAnswer.rect, emitRect, List.flatMap_cons, List.flatMap_nil, List.append_nil]
  rw [C110_rect tie ht W H hW hH _ (Nat.cast_nonneg _) (Nat.cast_nonneg _)]
  simp only [Int.floor_add_natCast, h1, h2]
  by_cases hc : 0 ≤ i - ⌊x + ans.offsetX⌋ ∧ i - ⌊x + ans.offsetX⌋ < (env.raster r).width ∧ 0 ≤ j - ⌊y + ans.offsetY⌋ ∧
      j - ⌊y + ans.offsetY⌋ < (env.raster r).height
  · rw [if_pos hc, if_pos (by omega), hp]
    simp only [List.map_cons, List.map_nil, List.cons.injEq, and_true, Place.tex, w1, w2]
    have a1 : ((env.raster r).width : Rat) ≠ 0 := by
      have : (env.raster r).width ≠ 0 := by omega
      exact_mod_cast this
    have a2 : ((env.raster r).height : Rat) ≠ 0 := by
      have : (env.raster r).height ≠ 0 := by omega
      exact_mod_cast this
    rw [← sampleLinear_centre 2048 (by omega) texel]
    congr 2
    · simp only [atlasExtent]
      push_cast
      rw [add_sub_cancel_left]
      field_simp
      ring
    · simp only [atlasExtent]
      push_cast
      rw [add_sub_cancel_left]
      field_simp
      ring
  · rw [if_neg hc, if_neg (by omega), List.map_nil]

/-- The hypotheses hold: `C67_glyph`, and the first glyph of the example of C67. -/
example : ∃ a ans, Atlas.getGlyph atlasEnv {} (atlasFont .normal) 1 = some (a, ans) ∧
    Answered atlasEnv (.glyph (atlasFont .normal) 1) ans ∧ ans.place = some ⟨0, 0, 0, 8, 10⟩ ∧ ans.offsetX = 1 := by
  refine ⟨_, _, rfl, ?_, by decide +kernel, by decide +kernel⟩
  exact (C67_glyph atlasEnv atlasEnv_small (fun _ _ _ _ _ _ _ => rfl) {} .start _ _ (by decide +kernel)).1 _ _ rfl

/-- The fragments of a list of rectangles at a pixel, with the colours of the rectangles. -/
def pixelOf (tie : Pt → Pt → Bool) (view : Pt) (l : List (Quad Vec4)) (i j : Int) : List (Vec4 × Pt) :=
  l.flatMap fun q => (quadFragments tie .rect view view q i j).map fun uv => (q.color, uv)

theorem flatMap_single {α β : Type _} {l : List α} {f : α → List β} {P : α → Prop} (hf : ∀ a, ¬ P a → f a = [])
    {R : α → α → Prop} (hl : l.Pairwise R) (hR : ∀ a b, R a b → P a → P b → False) {a : α} (ha : a ∈ l) (hP : P a) :
    l.flatMap f = f a := by
  induction l with
  | nil => cases ha
  | cons b l ih =>
    obtain ⟨h1, h2⟩ := List.pairwise_cons.1 hl
    rw [List.flatMap_cons]
    rcases List.mem_cons.1 ha with rfl | h
    · have : l.flatMap f = [] := by
        rw [List.flatMap_eq_nil_iff]
        intro c hc
        exact hf c fun h3 => hR _ _ (h1 c hc) hP h3
      rw [this, List.append_nil]
    · rw [ih h2 h, hf b fun h3 => hR _ _ (h1 a h) h3 hP, List.nil_append]

/-- The column `i` belongs to a piece. -/
def Quad.column (q : Quad Vec4) (i : Int) : Prop := q.x < i + 1 ∧ (i : Rat) + 1 ≤ q.x + q.width

instance (q : Quad Vec4) (i : Int) : Decidable (q.column i) := inferInstanceAs (Decidable (_ ∧ _))

theorem piece_fragments {tie : Pt → Pt → Bool} (ht : FairTie tie) {W H : Rat} (hW : 0 < W) (hH : 0 < H) {x y width height : Rat}
    {tex : TexRect} {color : Vec4} {clip : Rat × Rat} (hw : 0 < width) (hh : 0 ≤ height) (hc : clip.1 ≤ clip.2) {i j : Int}
    {q : Quad Vec4} (hq : q ∈ emitRect whiteColor x y width height tex color (some clip)) (hi : q.column i) :
    pixelOf tie (W, H) (emitRect whiteColor x y width height tex color (some clip)) i j =
      if ⌊y⌋ ≤ j ∧ j < ⌊y + height⌋ then
        [(q.color, (q.tex.u + q.tex.uw * ((i + 1 / 2 - ⌊q.x⌋) / (⌊q.x + q.width⌋ - ⌊q.x⌋)),
          tex.v + tex.vh * ((j + 1 / 2 - ⌊y⌋) / (⌊y + height⌋ - ⌊y⌋))))]
      else [] := by
  have T := C57_tiles whiteColor x y width height tex color clip hw hc
  obtain ⟨s1, s2, s3, s4, s5⟩ := T.strip q hq
  have hfrag : ∀ p ∈ emitRect whiteColor x y width height tex color (some clip), ¬ p.column i →
      (quadFragments tie .rect (W, H) (W, H) p i j).map (fun uv => (p.color, uv)) = [] := by
    intro p hp h
    obtain ⟨_, p2, _, p4, p5⟩ := T.strip p hp
    rw [C110_rect tie ht W H hW hH p p2 (p5 ▸ hh), if_neg, List.map_nil]
    rintro ⟨h1, h2, _⟩
    exact h ⟨(floor_le_pixel _ _).1 h1, (pixel_lt_floor _ _).1 h2⟩
  have key : pixelOf tie (W, H) (emitRect whiteColor x y width height tex color (some clip)) i j =
      (quadFragments tie .rect (W, H) (W, H) q i j).map (fun uv => (q.color, uv)) := by
    have e : pixelOf tie (W, H) (emitRect whiteColor x y width height tex color (some clip)) i j =
        (emitRect whiteColor x y width height tex color (some clip)).flatMap fun p =>
          if p.column i then (quadFragments tie .rect (W, H) (W, H) p i j).map (fun uv => (p.color, uv)) else [] := by
      unfold pixelOf
      refine List.flatMap_congr fun p hp => ?_
      by_cases h : p.column i
      · rw [if_pos h]
      · rw [if_neg h, hfrag p hp h]
    rw [e, flatMap_single (P := fun p => p.column i) (fun a h => if_neg h) T.apart ?_ hq hi, if_pos hi]
    rintro a b (h | h) ⟨a1, a2⟩ ⟨b1, b2⟩ <;> linarith
  rw [key, C110_rect tie ht W H hW hH q s2 (s5 ▸ hh)]
  obtain ⟨_, _, t3, t4⟩ := T.texture q hq
  have h1 := (floor_le_pixel _ _).2 hi.1
  have h2 := (pixel_lt_floor _ _).2 hi.2
  rw [s4, s5, t3, t4]
  by_cases hr : ⌊y⌋ ≤ j ∧ j < ⌊y + height⌋
  · rw [if_pos ⟨h1, h2, hr⟩, if_pos hr]; rfl
  · rw [if_neg (fun h => hr h.2.2), if_neg hr, List.map_nil]

theorem piece_exists {x y width height : Rat} {tex : TexRect} {color : Vec4} {clip : Rat × Rat} (i : Int)
    (h1 : x < i + 1) (h2 : (i : Rat) + 1 ≤ x + width) :
    ∃ q ∈ emitRect whiteColor x y width height tex color (some clip), q.column i := by
  obtain ⟨a, b⟩ := clip
  simp only [emitRect]
  split
  · exact ⟨_, List.mem_singleton.2 rfl, h1, h2⟩
  · by_cases c1 : a ≥ x + 1 ∧ a < x + width <;> by_cases c2 : b > x ∧ b + 1 ≤ x + width <;>
      simp only [c1, c2, and_self, if_true, if_false, List.cons_append, List.nil_append, List.mem_cons, List.not_mem_nil, or_false,
        exists_eq_or_imp, exists_eq_left, Quad.column]
    · by_cases d1 : (i : Rat) + 1 ≤ a
      · exact .inl ⟨h1, by linarith⟩
      · by_cases d2 : b < (i : Rat) + 1
        · exact .inr (.inl ⟨by linarith, by linarith⟩)
        · exact .inr (.inr ⟨by linarith, by linarith⟩)
    · by_cases d1 : (i : Rat) + 1 ≤ a
      · exact .inl ⟨h1, by linarith⟩
      · exact .inr ⟨by linarith, by linarith⟩
    · by_cases d2 : b < (i : Rat) + 1
      · exact .inl ⟨by linarith, by linarith⟩
      · exact .inr ⟨by linarith, by linarith⟩
    · exact ⟨h1, h2⟩

/-- C110: also where text is partly selected, in two colours, each pixel of the rectangle is drawn once and no other pixel is
touched; white are pixels at most one pixel away from the selection, in the other colour only pixels outside of it. -/
theorem C110_clipped (tie : Pt → Pt → Bool) (ht : FairTie tie) (W H : Rat) (hW : 0 < W) (hH : 0 < H) (x y width height : Rat)
    (hw : 0 < width) (hh : 0 ≤ height) (tex : TexRect) (color : Vec4) (clip : Rat × Rat) (hc : clip.1 ≤ clip.2) (i j : Int) :
    (⌊x⌋ ≤ i ∧ i < ⌊x + width⌋ ∧ ⌊y⌋ ≤ j ∧ j < ⌊y + height⌋ → ∃ c uv,
      pixelOf tie (W, H) (emitRect whiteColor x y width height tex color (some clip)) i j = [(c, uv)] ∧
      (c = whiteColor ∨ c = color) ∧
      (color ≠ whiteColor → c = whiteColor → clip.1 - 1 < i + 1 ∧ (i : Rat) < clip.2) ∧
      (color ≠ whiteColor → c = color → (i : Rat) + 1 ≤ clip.1 ∨ clip.2 < i + 1)) ∧
    (¬ (⌊x⌋ ≤ i ∧ i < ⌊x + width⌋ ∧ ⌊y⌋ ≤ j ∧ j < ⌊y + height⌋) →
      pixelOf tie (W, H) (emitRect whiteColor x y width height tex color (some clip)) i j = []) := by
  have T := C57_tiles whiteColor x y width height tex color clip hw hc
  constructor
  · rintro ⟨h1, h2, h3⟩
    obtain ⟨q, hq, hi⟩ := piece_exists (y := y) (height := height) (tex := tex) (color := color) (clip := clip) i
      ((floor_le_pixel _ _).1 h1) ((pixel_lt_floor _ _).1 h2)
    have e := piece_fragments ht hW hH (j := j) hw hh hc hq hi
    rw [if_pos h3] at e
    refine ⟨_, _, e, T.colors q hq, fun k1 k2 => ?_, fun k1 k2 => ?_⟩
    · obtain ⟨l1, l2⟩ := T.lit k1 q hq k2
      exact ⟨by linarith [hi.1], by linarith [hi.2]⟩
    · rcases T.unlit k1 q hq k2 with l | l
      · exact .inl (by linarith [hi.2])
      · exact .inr (by linarith [hi.1])
  · intro hn
    unfold pixelOf
    rw [List.flatMap_eq_nil_iff]
    intro q hq
    obtain ⟨s1, s2, s3, s4, s5⟩ := T.strip q hq
    rw [C110_rect tie ht W H hW hH q s2 (s5 ▸ hh), if_neg, List.map_nil]
    rintro ⟨h1, h2, h3, h4⟩
    refine hn ⟨?_, ?_, s4 ▸ h3, ?_⟩
    · rw [floor_le_pixel] at h1 ⊢; linarith
    · rw [pixel_lt_floor] at h2 ⊢; linarith
    · rw [← s4, ← s5]; exact h4

/-- Eight pixels from 1/2 on; the third and the fourth pixel are selected. -/
example : (List.range 9).map (fun i => ((pixelOf leftRule (16, 16)
      (emitRect whiteColor (1 / 2) 0 8 1 ⟨0, 0, 1, 1⟩ (0, 0, 0, 1) (some (5 / 2, 9 / 2))) i 0).map Prod.fst)) =
    [[(0, 0, 0, 1)], [(0, 0, 0, 1)], [whiteColor], [whiteColor], [(0, 0, 0, 1)], [(0, 0, 0, 1)], [(0, 0, 0, 1)], [(0, 0, 0, 1)], []] := by
  decide +kernel

/-- The left piece of a glyph whose selection begins inside of it. -/
theorem left_piece {x y width height a b : Rat} {tex : TexRect} {color : Vec4} (h1 : x + 1 ≤ a) (h2 : a < x + width) (h3 : a ≤ b) :
    (⟨x, y, a - x, height, ⟨tex.u, tex.v, tex.uw * (a - x) / width, tex.vh⟩, color⟩ : Quad Vec4) ∈
      emitRect whiteColor x y width height tex color (some (a, b)) := by
  simp only [emitRect]
  rw [if_neg (by rintro (h | h) <;> linarith)]
  simp only [ge_iff_le, h1, h2, and_self, if_true, List.mem_append, List.mem_singleton, true_or]

/-- C110 (violated for glyphs selected in part): left of the beginning of a selection the glyph is drawn from the centres of
its texels, and so unchanged, only if the beginning lies as far from the left side of the glyph as the two are apart when
rounded to pixels.  Otherwise its pixels are mixtures: selecting a part of a glyph changes the look of the rest. -/
theorem C110_selected_violated (tie : Pt → Pt → Bool) (ht : FairTie tie) (W H : Rat) (hW : 0 < W) (hH : 0 < H) (pl : Place)
    (x y : Rat) (color : Vec4) (a b : Rat) (h1 : x + 1 ≤ a) (h2 : a < x + pl.w) (h3 : a ≤ b) (i j : Int)
    (hi : ⌊x⌋ ≤ i ∧ i < ⌊a⌋) (hj : ⌊y⌋ ≤ j ∧ j < ⌊y⌋ + pl.h) :
    ∃ u v, pixelOf tie (W, H) (emitRect whiteColor x y pl.w pl.h (Place.tex (some pl)) color (some (a, b))) i j =
        [(color, (u, v))] ∧
      (u * 2048 = pl.x + (i - ⌊x⌋) + 1 / 2 ↔ a - x = ⌊a⌋ - ⌊x⌋) := by
  have hw : (0 : Rat) < pl.w := by linarith
  have hi' : (⟨x, y, a - x, pl.h, ⟨(Place.tex (some pl)).u, (Place.tex (some pl)).v,
      (Place.tex (some pl)).uw * (a - x) / pl.w, (Place.tex (some pl)).vh⟩, color⟩ : Quad Vec4).column i :=
    ⟨(floor_le_pixel _ _).1 hi.1, by simpa using (pixel_lt_floor _ _).1 hi.2⟩
  have e := piece_fragments ht hW hH (j := j) hw (Nat.cast_nonneg pl.h) h3 (left_piece (y := y) (height := pl.h)
    (tex := Place.tex (some pl)) (color := color) h1 h2 h3) hi'
  rw [if_pos ⟨hj.1, by rw [Int.floor_add_natCast]; exact hj.2⟩] at e
  refine ⟨_, _, e, ?_⟩
  simp only [Place.tex, atlasExtent, add_sub_cancel]
  have hn : (0 : Rat) < ⌊a⌋ - ⌊x⌋ := by
    have : (⌊x⌋ : Rat) < (⌊a⌋ : Rat) := by exact_mod_cast lt_of_le_of_lt hi.1 hi.2
    linarith
  have hd : (0 : Rat) < i + 1 / 2 - ⌊x⌋ := by
    have : (⌊x⌋ : Rat) ≤ (i : Rat) := by exact_mod_cast hi.1
    linarith
  generalize hN : (⌊a⌋ : Rat) - ⌊x⌋ = n at *
  generalize hD : (i : Rat) + 1 / 2 - ⌊x⌋ = d at *
  have e1 : ((pl.x : Rat) / ((2048 : Nat) : Rat) + (pl.w : Rat) / ((2048 : Nat) : Rat) * (a - x) / pl.w * (d / n)) * 2048 =
      pl.x + (a - x) * (d / n) := by
    push_cast
    field_simp
  have e2 : (pl.x : Rat) + (i - ⌊x⌋) + 1 / 2 = pl.x + d := by rw [← hD]; ring
  rw [e1, e2, add_right_inj]
  constructor
  · intro h
    have h5 : (a - x) * d = n * d := by
      have := congrArg (· * n) h
      simp only [mul_assoc, div_mul_cancel₀ d hn.ne'] at this
      rw [this, mul_comm]
    exact mul_right_cancel₀ hd.ne' h5
  · intro h
    rw [h, mul_div_cancel₀ _ hn.ne']

/-- The first pixel of a glyph at 1/2 whose selection begins at 3: not from the centre, 1/2, of its first texel. -/
example : (pixelOf leftRule (16, 16) (emitRect whiteColor (1 / 2) 0 8 10 (Place.tex (some ⟨0, 9, 0, 8, 10⟩)) (0, 0, 0, 1)
    (some (3, 20))) 0 0).map (fun p => p.2.1 * 2048) = [9 + 5 / 12] := by decide +kernel

/-- A texture sampled left of the centres of a column shows the column before. -/
theorem sampleLinear_bleeds {extent : Nat} {px : Int} {u v : Rat} (h1 : px - 1 / 2 < u * extent) (h2 : u * extent < px + 1 / 2)
    (f : Int → Int → Rat) (c : Rat) (hc : c ≠ 0) :
    sampleLinear extent (fun k l => f k l + if k = px - 1 then c else 0) (u, v) ≠ sampleLinear extent f (u, v) := by
  have hf : ⌊u * extent - 1 / 2⌋ = px - 1 := by
    rw [Int.floor_eq_iff]; push_cast; constructor <;> linarith
  simp only [sampleLinear, hf, if_true]
  rw [if_neg (by omega)]
  have hw : 0 < 1 - (u * extent - 1 / 2 - ((px - 1 : Int) : Rat)) := by push_cast; linarith
  intro h
  have : (1 - (u * extent - 1 / 2 - ((px - 1 : Int) : Rat))) * c = 0 := by linear_combination h
  rcases mul_eq_zero.1 this with h | h
  · exact hw.ne' h
  · exact hc h

/-- C110 (violated): the first pixels of a partly selected glyph may show the column of the atlas before its place, which
belongs to another glyph's padding and which nothing has ever written (the contents of textures made without data are
undefined). -/
theorem C110_padding_violated (tie : Pt → Pt → Bool) (ht : FairTie tie) (W H : Rat) (hW : 0 < W) (hH : 0 < H) (pl : Place)
    (x y : Rat) (color : Vec4) (a b : Rat) (h1 : x + 1 ≤ a) (h2 : a < x + pl.w) (h3 : a ≤ b)
    (hlt : a - x < ⌊a⌋ - ⌊x⌋) (j : Int) (hj : ⌊y⌋ ≤ j ∧ j < ⌊y⌋ + pl.h) (texel : Int → Int → Rat) (c : Rat) (hc : c ≠ 0) :
    ∃ uv, pixelOf tie (W, H) (emitRect whiteColor x y pl.w pl.h (Place.tex (some pl)) color (some (a, b))) ⌊x⌋ j = [(color, uv)] ∧
      sampleLinear 2048 (fun k l => texel k l + if k = pl.x - 1 then c else 0) uv ≠ sampleLinear 2048 texel uv := by
  have hw : (0 : Rat) < pl.w := by linarith
  have hn : (0 : Rat) < ⌊a⌋ - ⌊x⌋ := by linarith
  have hi : ⌊x⌋ < ⌊a⌋ := by
    have : (⌊x⌋ : Rat) < (⌊a⌋ : Rat) := by linarith
    exact_mod_cast this
  have hi' : (⟨x, y, a - x, pl.h, ⟨(Place.tex (some pl)).u, (Place.tex (some pl)).v,
      (Place.tex (some pl)).uw * (a - x) / pl.w, (Place.tex (some pl)).vh⟩, color⟩ : Quad Vec4).column ⌊x⌋ :=
    ⟨(floor_le_pixel _ _).1 le_rfl, by simpa using (pixel_lt_floor _ _).1 hi⟩
  have e := piece_fragments ht hW hH (j := j) hw (Nat.cast_nonneg pl.h) h3 (left_piece (y := y) (height := pl.h)
    (tex := Place.tex (some pl)) (color := color) h1 h2 h3) hi'
  rw [if_pos ⟨hj.1, by rw [Int.floor_add_natCast]; exact hj.2⟩] at e
  refine ⟨_, e, ?_⟩
  have e1 : ((Place.tex (some pl)).u + (Place.tex (some pl)).uw * (a - x) / pl.w * ((⌊x⌋ + 1 / 2 - ⌊x⌋) / (⌊x + (a - x)⌋ - ⌊x⌋))) *
      ((2048 : Nat) : Rat) = pl.x + (a - x) * (1 / 2 / (⌊a⌋ - ⌊x⌋)) := by
    rw [add_sub_cancel, add_sub_cancel_left]
    generalize (⌊a⌋ : Rat) - ⌊x⌋ = n at *
    simp only [Place.tex, atlasExtent]
    push_cast
    field_simp
  have hq : (a - x) * (1 / 2 / ((⌊a⌋ : Rat) - ⌊x⌋)) < 1 / 2 := by
    generalize (⌊a⌋ : Rat) - ⌊x⌋ = n at *
    rw [div_div, mul_one_div, div_lt_div_iff₀ (by linarith) (by norm_num)]
    linarith
  have hq0 : 0 < (a - x) * (1 / 2 / ((⌊a⌋ : Rat) - ⌊x⌋)) := by
    apply mul_pos (by linarith)
    exact div_pos (by norm_num) hn
  refine sampleLinear_bleeds (px := pl.x) ?_ ?_ texel c hc
  · rw [e1]; push_cast; linarith
  · rw [e1]; push_cast; linarith

/-- The hypotheses: the glyph at 1/2 of above, its selection from 3 on. -/
example : (1 / 2 : Rat) + 1 ≤ 3 ∧ (3 : Rat) < 1 / 2 + 8 ∧ (3 : Rat) - 1 / 2 < ⌊(3 : Rat)⌋ - ⌊(1 / 2 : Rat)⌋ := by decide +kernel

/-- What the visitor of `draw_text` makes of underlines and strikethroughs, sample/ui_container.cpp:189-192. -/
def DrawCall.quad {φ σ : Type} : DrawCall φ Vec4 σ → Option (Quad Vec4)
  | .rect _ x y w h c => some ⟨x, y, w, h, unitTex, c⟩
  | _ => none

/-- C110 (partial: lines of at least half a pixel): a decoration at least one pixel long is seen. -/
theorem C110_decoration_partial {φ σ : Type} (tie : Pt → Pt → Bool) (ht : FairTie tie) (W H : Rat) (hW : 0 < W) (hH : 0 < H)
    (strike : Bool) (m : FontMetrics) (hm : 1 / 2 ≤ if strike then m.strikeThickness else m.underlineThickness)
    (lineX lineY start stop : Rat) (hs : start + 1 ≤ stop) (c : Vec4) :
    ∃ q i j, (decoRect strike m lineX lineY start stop c : DrawCall φ Vec4 σ).quad = some q ∧
      quadFragments tie .rect (W, H) (W, H) q i j ≠ [] := by
  have go : ∀ x y w h : Rat, 1 ≤ w → 1 ≤ h → quadFragments tie .rect (W, H) (W, H) ⟨x, y, w, h, unitTex, c⟩ ⌊x⌋ ⌊y⌋ ≠ [] := by
    intro x y w h h1 h2
    rw [C110_rect tie ht W H hW hH _ (by simp only; linarith) (by simp only; linarith)]
    have k : ∀ p r : Rat, 1 ≤ r → ⌊p⌋ < ⌊p + r⌋ := by
      intro p r hr
      rw [pixel_lt_floor]
      linarith [Int.floor_le p]
    rw [if_pos ⟨le_rfl, k _ _ h1, le_rfl, k _ _ h2⟩]
    simp
  cases strike with
  | true => exact ⟨_, _, _, rfl, go _ _ _ _ (by linarith) (by simp only [if_true] at hm; linarith)⟩
  | false => exact ⟨_, _, _, rfl, go _ _ _ _ (by linarith) (by simp only [Bool.false_eq_true, if_false] at hm; linarith)⟩

/-- Noto Sans from 13 pixels on. -/
example : ((noto 13).metrics.map fun m => decide (1 / 2 ≤ ((noto 13).drawMetrics m).underlineThickness)) = some true := by decide +kernel

/-- C110 (violated for thin lines): the underline of Noto Sans at 11 pixels and its strikethrough at 8 pixels, on a baseline
between two pixels, cover no pixel at all. -/
theorem C110_decoration_violated {φ σ : Type} (tie : Pt → Pt → Bool) (ht : FairTie tie) (W H : Rat) (hW : 0 < W) (hH : 0 < H)
    (strike : Bool) (lineX : Rat) (lineY : Int) (start stop : Rat) (hs : start ≤ stop) (c : Vec4) :
    ∃ size m q, 8 ≤ size ∧ (noto size).metrics = some m ∧
      (decoRect strike ((noto size).drawMetrics m) lineX lineY start stop c : DrawCall φ Vec4 σ).quad = some q ∧
      ∀ i j, quadFragments tie .rect (W, H) (W, H) q i j = [] := by
  have go : ∀ x w y h : Rat, 0 ≤ w → 0 ≤ h → ⌊y⌋ = ⌊y + h⌋ → ∀ i j,
      quadFragments tie .rect (W, H) (W, H) ⟨x, lineY + y, w, h, unitTex, c⟩ i j = [] := by
    intro x w y h h1 h2 h3 i j
    rw [C110_rect tie ht W H hW hH _ h1 h2, if_neg]
    rintro ⟨_, _, k1, k2⟩
    simp only at k1 k2
    rw [add_assoc, Int.floor_intCast_add, ← h3] at k2
    rw [Int.floor_intCast_add] at k1
    omega
  cases strike with
  | true =>
    refine ⟨8, (noto 8).metrics.get (by decide +kernel), _, le_rfl, by simp, rfl, go _ _ _ _ (by linarith) ?_ ?_⟩
    · decide +kernel
    · decide +kernel
  | false =>
    refine ⟨11, (noto 11).metrics.get (by decide +kernel), _, by omega, by simp, rfl, go _ _ _ _ (by linarith) ?_ ?_⟩
    · decide +kernel
    · decide +kernel

/-! ### C111 -/

/-- C111: `median` is one of the three channels, at least two of them are not larger, at least two not smaller. -/
theorem C111_median (r g b : Rat) :
    let m := shaderMedian r g b
    (m = r ∨ m = g ∨ m = b) ∧ ((r ≤ m ∧ g ≤ m) ∨ (r ≤ m ∧ b ≤ m) ∨ (g ≤ m ∧ b ≤ m)) ∧
      ((m ≤ r ∧ m ≤ g) ∨ (m ≤ r ∧ m ≤ b) ∨ (m ≤ g ∧ m ≤ b)) := by
  simp only [shaderMedian]
  rcases le_total r g with h1 | h1 <;> rcases le_total r b with h2 | h2 <;> rcases le_total g b with h3 | h3 <;>
    simp [h1, h2, h3]

example : shaderMedian (1 / 4) (3 / 4) (1 / 2) = 1 / 2 ∧ shaderMedian 1 0 0 = 0 := by decide +kernel

/-- C111: where the distance is not constant, the opacity is 0 outside, 1 inside, 1/2 on the outline, and grows with the
distance in a band around the outline as wide as the change of the distance to the next pixels (`w`). -/
theorem C111_opacity_partial (r g b w : Rat) (hw : 0 < w) :
    ∃ o, msdfOpacity r g b w = some o ∧ 0 ≤ o ∧ o ≤ 1 ∧ (o = 0 ↔ shaderMedian r g b ≤ 1 / 2 - w) ∧
      (o = 1 ↔ 1 / 2 + w ≤ shaderMedian r g b) ∧ (o = 1 / 2 ↔ shaderMedian r g b = 1 / 2) ∧
      ∀ r' g' b' o', msdfOpacity r' g' b' w = some o' → shaderMedian r g b ≤ shaderMedian r' g' b' → o ≤ o' := by
  have hlt : 1 / 2 - w < 1 / 2 + w := by linarith
  have e : (1 / 2 + w) - (1 / 2 - w) = 2 * w := by ring
  have val : ∀ r g b, msdfOpacity r g b w = some (
      (max 0 (min 1 ((shaderMedian r g b - (1 / 2 - w)) / (2 * w)))) * (max 0 (min 1 ((shaderMedian r g b - (1 / 2 - w)) / (2 * w)))) *
      (3 - 2 * (max 0 (min 1 ((shaderMedian r g b - (1 / 2 - w)) / (2 * w)))))) := by
    intro r g b; simp only [msdfOpacity, smoothstep, if_pos hlt, e]
  have bounds : ∀ m : Rat, 0 ≤ max 0 (min 1 ((m - (1 / 2 - w)) / (2 * w))) ∧ max 0 (min 1 ((m - (1 / 2 - w)) / (2 * w))) ≤ 1 :=
    fun m => ⟨le_max_left _ _, max_le (by norm_num) (min_le_left _ _)⟩
  have mono : ∀ s t : Rat, 0 ≤ s → s ≤ t → t ≤ 1 → s * s * (3 - 2 * s) ≤ t * t * (3 - 2 * t) := by
    intro s t h1 h2 h3
    have : 0 ≤ (t - s) * (3 * (t + s) - 2 * (t * t + t * s + s * s)) := by
      apply mul_nonneg (by linarith)
      nlinarith [mul_nonneg h1 (by linarith : (0 : Rat) ≤ 1 - t), mul_nonneg h1 (by linarith : (0 : Rat) ≤ 1 - s),
        mul_nonneg (h1.trans h2) (by linarith : (0 : Rat) ≤ 1 - t), mul_nonneg (h1.trans h2) (by linarith : (0 : Rat) ≤ 1 - s)]
    nlinarith
  have tz : ∀ z : Rat, (max 0 (min 1 z) = 0 ↔ z ≤ 0) ∧ (max 0 (min 1 z) = 1 ↔ 1 ≤ z) ∧ (max 0 (min 1 z) = 1 / 2 ↔ z = 1 / 2) := by
    intro z
    rcases le_total z 0 with h | h
    · rw [min_eq_right (by linarith), max_eq_left h]
      exact ⟨⟨fun _ => h, fun _ => rfl⟩, ⟨fun k => by norm_num at k, fun k => by linarith⟩, ⟨fun k => by norm_num at k, fun k => by linarith⟩⟩
    · rcases le_total z 1 with h' | h'
      · rw [min_eq_right h', max_eq_right h]
        exact ⟨⟨fun k => by linarith, fun k => by linarith⟩, ⟨fun k => by linarith, fun k => by linarith⟩, Iff.rfl⟩
      · rw [min_eq_left h', max_eq_right (by norm_num)]
        exact ⟨⟨fun k => by norm_num at k, fun k => by linarith⟩, ⟨fun _ => h', fun _ => rfl⟩, ⟨fun k => by norm_num at k, fun k => by linarith⟩⟩
  refine ⟨_, val r g b, ?_, ?_, ?_, ?_, ?_, ?_⟩
  rotate_right
  · intro r' g' b' o' h hm
    rw [val, Option.some.injEq] at h
    subst h
    refine mono _ _ (bounds _).1 (max_le_max le_rfl (min_le_min le_rfl ?_)) (bounds _).2
    exact div_le_div_of_nonneg_right (by linarith) (by linarith)
  all_goals generalize shaderMedian r g b = m
  all_goals obtain ⟨b1, b2⟩ := bounds m
  all_goals have hdiv : (m - (1 / 2 - w)) / (2 * w) * (2 * w) = m - (1 / 2 - w) := div_mul_cancel₀ _ (by linarith)
  all_goals obtain ⟨t1, t2, t3⟩ := tz ((m - (1 / 2 - w)) / (2 * w))
  all_goals generalize hz : (m - (1 / 2 - w)) / (2 * w) = z at *
  all_goals generalize ht : max 0 (min 1 z) = t at *
  · nlinarith [mul_nonneg b1 b1]
  · linarith [mono t 1 b1 b2 le_rfl]
  · have z1 : z ≤ 0 ↔ m ≤ 1 / 2 - w := by
      constructor
      · intro h; nlinarith
      · intro h; by_contra hc; nlinarith
    rw [← z1, ← t1]
    constructor
    · intro h
      rcases mul_eq_zero.1 h with h | h
      · exact mul_self_eq_zero.1 h
      · linarith
    · intro h; rw [h]; ring
  · have z1 : 1 ≤ z ↔ 1 / 2 + w ≤ m := by
      constructor
      · intro h; nlinarith
      · intro h; by_contra hc; nlinarith
    rw [← z1, ← t2]
    constructor
    · intro h
      have : (1 - t) * (1 - t) * (1 + 2 * t) = 0 := by linear_combination -h
      rcases mul_eq_zero.1 this with h | h
      · linarith [mul_self_eq_zero.1 h]
      · linarith
    · intro h; rw [h]; ring
  · have z1 : z = 1 / 2 ↔ m = 1 / 2 := by
      constructor
      · intro h; rw [h] at hdiv; linarith
      · intro h
        have : (z - 1 / 2) * (2 * w) = 0 := by rw [sub_mul, hdiv, h]; ring
        rcases mul_eq_zero.1 this with h | h <;> linarith
    rw [← z1, ← t3]
    constructor
    · intro h
      have : (t - 1 / 2) * (-2 * t * t + 2 * t + 1) = 0 := by linear_combination h
      rcases mul_eq_zero.1 this with h | h
      · linarith
      · nlinarith [mul_nonneg b1 (by linarith : (0 : Rat) ≤ 1 - t)]
    · intro h; rw [h]; ring

/-- A glyph's edge: halfway, and a quarter inside a band of a quarter. -/
example : msdfOpacity (1 / 2) 1 0 (1 / 4) = some (1 / 2) ∧ msdfOpacity (3 / 4) 1 0 (1 / 4) = some 1 ∧
    msdfOpacity (5 / 8) 1 0 (1 / 4) = some (27 / 32) := by decide +kernel

/-- C111 (violated): where the distance does not change from a fragment to the next ones the two edges of `smoothstep` are the
same, and its result is undefined; so it is in every part of a bitmap where the distances have reached 0 or 255.  `dx`, `dy`
are the derivatives, `w` the length. -/
theorem C111_flat_violated (r g b dx dy w : Rat) (h0 : 0 ≤ w) (hw : w * w = dx * dx + dy * dy) :
    msdfOpacity r g b w = none ↔ dx = 0 ∧ dy = 0 := by
  have key : w = 0 ↔ dx = 0 ∧ dy = 0 := by
    constructor
    · rintro rfl
      constructor <;> exact mul_self_eq_zero.1 (by nlinarith [mul_self_nonneg dx, mul_self_nonneg dy])
    · rintro ⟨rfl, rfl⟩; exact mul_self_eq_zero.1 (by linarith)
  rw [← key]
  rcases h0.eq_or_lt with h | h
  · simp [msdfOpacity, smoothstep, ← h]
  · obtain ⟨o, ho, -⟩ := C111_opacity_partial r g b w h
    simp [ho, h.ne']

example : msdfOpacity 0 0 0 0 = none ∧ (5 : Rat) * 5 = 3 * 3 + 4 * 4 := by decide +kernel

/-- C111: a rectangle of the MSDF pipeline covers the pixels whose centres are inside, without rounding, each once; its
texture is stretched evenly.  (Centres on its four sides are left out: there the rule for edges decides.) -/
theorem C111_rect_partial (tie : Pt → Pt → Bool) (ht : FairTie tie) (W H : Rat) (hW : 0 < W) (hH : 0 < H) (q : Quad Vec4)
    (hw : 0 ≤ q.width) (hh : 0 ≤ q.height) (i j : Int) (h1 : (i : Rat) + 1 / 2 ≠ q.x) (h2 : (i : Rat) + 1 / 2 ≠ q.x + q.width)
    (h3 : (j : Rat) + 1 / 2 ≠ q.y) (h4 : (j : Rat) + 1 / 2 ≠ q.y + q.height) :
    quadFragments tie .msdf (W, H) (W, H) q i j =
      if q.x < i + 1 / 2 ∧ (i : Rat) + 1 / 2 < q.x + q.width ∧ q.y < j + 1 / 2 ∧ (j : Rat) + 1 / 2 < q.y + q.height then
        [(q.tex.u + q.tex.uw * ((i + 1 / 2 - q.x) / q.width), q.tex.v + q.tex.vh * ((j + 1 / 2 - q.y) / q.height))]
      else [] := msdf_fragments tie ht hW hH q hw hh i j h1 h2 h3 h4

example : (List.range 4).map (fun i => quadFragments leftRule .msdf (8, 8) (8, 8) ⟨3 / 4, 1 / 4, 2, 2, ⟨0, 0, 1, 1⟩, whiteColor⟩ i 1) =
    [[], [(3 / 8, 5 / 8)], [(7 / 8, 5 / 8)], []] := by decide +kernel

/-- C111 (violated): the pixels along the left side of an MSDF glyph drawn between pixels, or at another size than that of
its bitmap, show the column of the atlas before its place, which nothing has ever written. -/
theorem C111_padding_violated (tie : Pt → Pt → Bool) (ht : FairTie tie) (W H : Rat) (hW : 0 < W) (hH : 0 < H) (pl : Place)
    (x y w h : Rat) (hw : 0 < w) (hh : 0 < h) (color : Vec4) (i j : Int) (h1 : x < i + 1 / 2) (h2 : (i : Rat) + 1 / 2 < x + w)
    (h3 : y < j + 1 / 2) (h4 : (j : Rat) + 1 / 2 < y + h) (hpl : (i + 1 / 2 - x) / w * pl.w < 1 / 2) (texel : Int → Int → Rat)
    (c : Rat) (hc : c ≠ 0) :
    ∃ uv, quadFragments tie .msdf (W, H) (W, H) ⟨x, y, w, h, Place.tex (some pl), color⟩ i j = [uv] ∧
      sampleLinear 2048 (fun k l => texel k l + if k = pl.x - 1 then c else 0) uv ≠ sampleLinear 2048 texel uv := by
  have e := C111_rect_partial tie ht W H hW hH ⟨x, y, w, h, Place.tex (some pl), color⟩ hw.le hh.le i j h1.ne' h2.ne h3.ne' h4.ne
  rw [if_pos ⟨h1, h2, h3, h4⟩] at e
  refine ⟨_, e, ?_⟩
  have e1 : ((Place.tex (some pl)).u + (Place.tex (some pl)).uw * ((i + 1 / 2 - x) / w)) * ((2048 : Nat) : Rat) =
      pl.x + (i + 1 / 2 - x) / w * pl.w := by
    simp only [Place.tex, atlasExtent]
    push_cast
    field_simp
  have e2 : 0 ≤ (i + 1 / 2 - x) / w * pl.w := mul_nonneg (div_nonneg (by linarith) hw.le) (Nat.cast_nonneg _)
  refine sampleLinear_bleeds (px := pl.x) ?_ ?_ texel c hc
  · rw [e1]; push_cast; linarith
  · rw [e1]; push_cast; linarith

/-- The hypotheses: a glyph of 8 texels drawn 8 pixels wide from 1/4 on. -/
example : (1 / 4 : Rat) < (0 : Int) + 1 / 2 ∧ (((0 : Int) : Rat) + 1 / 2 - 1 / 4) / 8 * (8 : Nat) < 1 / 2 := by decide +kernel

end RichText
