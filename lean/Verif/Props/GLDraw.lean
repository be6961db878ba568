import Verif.Proof.GLDraw
/-!
C109: rectangles are drawn with their own pipeline, texture, colour and window size, whatever the container remembers.
-/
namespace RichText

/-- C109, what holds: frames are defined exactly if the requests to the atlases are, and what is drawn are exactly the wanted
rectangles, in order, each with its own pipeline, the texture of its own image, its own extents, texture coordinates and
colour, and the size of the window at its frame, though the container sets only what it thinks has changed and atlases bind
new pages behind its back.  Different images have different textures.  Missing: if a program could not be made
(`C109_program_violated`). -/
theorem C109_drawn_partial (env : CanvasEnv) (hp : ∀ p, (env.pipes p).program ≠ 0) (c : GLContext) (t : List Frame) :
    ((∃ s, Canvas.frames env t (Canvas.start c) = some s) ↔ ∃ a l, wantedFrames env t ({}, {}) = some (a, l)) ∧
    ∀ s, Canvas.frames env t (Canvas.start c) = some s →
      (∃ l, wantedFrames env t ({}, {}) = some ((s.atlas, s.msdf), l) ∧ (∀ w ∈ l, ∃ h, s.handle w.image = some h) ∧
        s.gl.drawn = c.drawn ++ l.map (Wanted.drawn env.pipes s.handle)) ∧
      (∀ r r' h, s.handle r = some h → s.handle r' = some h → r = r') := by
  obtain ⟨h1, h2⟩ := frames_ok hp t (start_images c)
  have key : ∀ s, Canvas.frames env t (Canvas.start c) = some s → ∃ a l, wantedFrames env t ({}, {}) = some (a, l) ∧
      s.Images ∧ (Canvas.start c).Draws env s a l := by
    intro s hs
    cases hw : wantedFrames env t ({}, {}) with
    | none =>
      have h3 := h1 hw
      rw [hs] at h3
      cases h3
    | some r =>
      obtain ⟨s', e, hi, hd⟩ := h2 r.1 r.2 hw
      rw [hs] at e
      cases e
      exact ⟨r.1, r.2, rfl, hi, hd⟩
  refine ⟨⟨?_, ?_⟩, ?_⟩
  · rintro ⟨s, hs⟩
    obtain ⟨a, l, h, _⟩ := key s hs
    exact ⟨a, l, h⟩
  · rintro ⟨a, l, h⟩
    obtain ⟨s', e, _⟩ := h2 a l h
    exact ⟨s', e⟩
  · intro s hs
    obtain ⟨a, l, h, hi, hd⟩ := key s hs
    refine ⟨⟨l, by rw [hd.atlases]; exact h, hd.known, hd.drawn⟩, fun r r' x hr hr' => hi.injective hr hr'⟩

/-- C109, false: a program that could not be made (`try_compile_program` leaves 0) is used all the same: whatever rectangle
comes first in a frame, it is drawn with no program, and so without its extents, texture coordinates and colour. -/
theorem C109_program_violated (env : CanvasEnv) (size : Rat × Rat) (s : Canvas) (p : PipelineIndex) (q : Quad Vec4)
    (h0 : (env.pipes p).program = 0) (hi : s.pipelineIndex = none) (hu : ∀ l, s.gl.uniforms 0 l = none) :
    ∃ s' d, s.drawRect env size (some .default) p q = some s' ∧ s'.gl.drawn = s.gl.drawn ++ [d] ∧ d.program = 0 ∧
      d.extents = none ∧ d.texCoords = none ∧ d.color = none := by
  by_cases hm : s.image = some .default
  · refine ⟨_, _, by simp [Canvas.drawRect, hi, hm]; rfl, by simp [GLContext.draw, GLContext.setUniform, GLContext.bindPipeline, h0]; rfl, ?_⟩
    simp [hu]
  · refine ⟨_, _, by simp [Canvas.drawRect, hi, hm, Canvas.handle]; rfl, by simp [GLContext.draw, GLContext.setUniform, GLContext.bindPipeline, GLContext.bindTexture, h0]; rfl, ?_⟩
    simp [hu]

/-! ### Examples -/

/-- The pipelines of `init_pipelines`, sample/pipeline.cpp:18-25, with the names OpenGL gives first; triangles are 4, line
loops 2. -/
def samplePipes : PipelineIndex → PipelineObj
  | .rect => ⟨1, 3, 4, 6⟩
  | .msdf => ⟨2, 6, 4, 6⟩
  | .outline => ⟨3, 9, 2, 4⟩

/-- Glyph 0 is grey, glyph 1 has colours, glyph 2 is empty; no MSDF glyph has an outline. -/
def sampleCanvas : CanvasEnv where
  pipes := samplePipes
  raster := {
    glyph := fun _ g => if g = 2 then ⟨0, 0, 0, 0, false⟩ else ⟨10, 12, 1, -12, g == 1⟩
    stroke := fun _ _ _ _ => ⟨14, 16, -1, -14, false⟩
    baseline := fun _ => 0 }
  msdf := { glyph := fun _ _ => [], stroke := fun _ _ _ _ => [], bounds := fun _ => ⟨0, 0, 0, 0⟩, upem := fun _ => 1000,
            ppemX := fun _ => 32, ppemY := fun _ => 32 }
  useMSDF := false
  showGlyphOutlines := false

/-- A font. -/
def canvasFont : SingleScriptFont := ⟨⟨0#16, 4#4, .normal⟩, 48#32, 4#4, .normal, false, false, false, false, false, false⟩

/-- A grey glyph, an untextured rectangle, a glyph with colours, which needs a second page, the grey glyph again, partly
selected; then, in a larger window, with outlines shown, the grey glyph and an empty one. -/
def sampleFrames : List Frame :=
  [⟨(640, 480), false, false, [.glyph canvasFont 0 5 40 (0, 0, 0, 1) none, .rect 0 0 640 20 (1, 1, 1, 1) .rect none,
      .glyph canvasFont 1 20 40 (0, 0, 0, 1) none, .glyph canvasFont 0 30 40 (0, 0, 0, 1) (some (35, 60))]⟩,
   ⟨(800, 600), false, true, [.glyph canvasFont 0 5 40 (0, 0, 0, 1) none, .glyph canvasFont 2 15 40 (0, 0, 0, 1) none]⟩]

/-- Eight rectangles with the textures 2, 1, 3, 2, 2, 2, 1, 1; the empty glyph has only an outline, with no area. -/
example : ((Canvas.frames sampleCanvas sampleFrames (Canvas.start {})).map fun s =>
    s.gl.drawn.map fun d => (d.program, d.texture)) =
    some [(3, 2), (3, 1), (3, 3), (3, 2), (3, 2), (3, 2), (9, 1), (9, 1)] := by
  decide +kernel

/-- They are those wanted. -/
example : ∃ s l, Canvas.frames sampleCanvas sampleFrames (Canvas.start {}) = some s ∧ l.length = 8 ∧
    wantedFrames sampleCanvas sampleFrames ({}, {}) = some ((s.atlas, s.msdf), l) ∧
    s.gl.drawn = l.map (Wanted.drawn samplePipes s.handle) := by
  have h : ∀ p, (sampleCanvas.pipes p).program ≠ 0 := by intro p; cases p <;> decide
  obtain ⟨h1, h2⟩ := C109_drawn_partial sampleCanvas h {} sampleFrames
  have hw : (wantedFrames sampleCanvas sampleFrames ({}, {})).map (fun r => r.2.length) = some 8 := by decide +kernel
  obtain ⟨r, hr, hl⟩ := Option.map_eq_some_iff.1 hw
  obtain ⟨s, hs⟩ := h1.2 ⟨r.1, r.2, hr⟩
  obtain ⟨⟨l, e1, _, e2⟩, _⟩ := h2 s hs
  rw [hr] at e1
  obtain ⟨r1, r2⟩ := r
  cases e1
  exact ⟨s, l, hs, hl, hr, by simpa using (show s.gl.drawn = [] ++ l.map (Wanted.drawn samplePipes s.handle) from e2)⟩

/-- If the outline program does not compile, outlines are drawn with no program. -/
example : ∃ s' d, Canvas.drawRect { sampleCanvas with pipes := fun p => if p = .outline then ⟨3, 0, 2, 4⟩ else samplePipes p }
    (640, 480) (Canvas.start {}) (some .default) .outline ⟨5, 5, 10, 10, unitTex, outlineColor⟩ = some s' ∧
    s'.gl.drawn = [d] ∧ d.program = 0 ∧ d.extents = none ∧ d.texCoords = none ∧ d.color = none := by
  obtain ⟨s', d, h1, h2, h3⟩ := C109_program_violated
    { sampleCanvas with pipes := fun p => if p = .outline then ⟨3, 0, 2, 4⟩ else samplePipes p } (640, 480) (Canvas.start {})
    .outline ⟨5, 5, 10, 10, unitTex, outlineColor⟩ rfl rfl (fun _ => rfl)
  exact ⟨s', d, h1, by simpa [Canvas.start, GLContext.newImage] using h2, h3⟩

end RichText
