import Verif.Proof.Pen
import Verif.Props.Built
/-!
# C73: glyphs stand where HarfBuzz puts them
-/
namespace RichText
variable {β φ : Type _}

/-! ## C73 -/

/-- What the builder makes of a run, whatever HarfBuzz returns for it: the glyphs in
HarfBuzz's order; each is moved from the place HarfBuzz gives it to the left by the offset
of the first glyph, and the run is shorter by that offset; offsets across the line are
taken as downward. -/
theorem C73_positions {e : ParaEnv β φ} {v : β} {f : φ} (hone : e.OneRun v f) (hd : e.vertical = false)
    (h : e.OK [(e.line.start + e.line.length, v)]) (runCount : Nat) {hb : List HbGlyph}
    (hhb : e.shape f v e.line.start (e.line.start + e.line.length) = hb) {first : HbGlyph} (hfirst : hb[0]? = some first) :
    ∃ gs ex ey height ascent hi total,
      buildParagraph e [(e.line.start + e.line.length, v)] runCount =
        some ([.run f gs ex ey e.line.start (e.line.start + e.line.length) (e.reversed v), .line height ascent], hi, total) ∧
      gs.length = hb.length ∧ ex = ((penX hb hb.length : Int) : Rat) / 64 - (first.xOffset : Rat) / 64 ∧
      ∀ (i : Nat) (g : HbGlyph), hb[i]? = some g → gs[i]? = some ⟨g.glyph, e.line.start + g.cluster,
        (hbPlace hb i g).1 - (first.xOffset : Rat) / 64, -(hbPlace hb i g).2⟩ := by
  subst hhb
  obtain ⟨gs, ex, ey, z, height, ascent, hi, total, h1, h2, h3, _, h4⟩ := oneRun_spec hone h runCount hfirst
  rw [hd] at h3
  refine ⟨gs, ex, ey, height, ascent, hi, total, h1, h2, ?_, ?_⟩
  · rw [h3]
    simp only [placeAt, Bool.false_eq_true, if_false, mul_one]
    push_cast [penAlong, penX, HbGlyph.advPrimary, HbGlyph.offPrimary]
    ring
  · intro i g hg
    obtain ⟨q, hq, h5⟩ := h4 i g hg
    rw [hd] at hq
    rw [h5, hq]
    simp only [placeAt, Bool.false_eq_true, if_false, mul_one, hbPlace, penAlong, penAcross, penX, penY,
      HbGlyph.advPrimary, HbGlyph.offPrimary, HbGlyph.advSecondary, HbGlyph.offSecondary]
    congr 2
    · push_cast; ring
    · push_cast; ring

/-- In vertical text the glyphs are below the place HarfBuzz gives them by the upward offset
of the first glyph (above it, if that offset is downward); across the line they stand where
HarfBuzz puts them. -/
theorem C73_vertical {e : ParaEnv β φ} {v : β} {f : φ} (hone : e.OneRun v f) (hd : e.vertical = true)
    (h : e.OK [(e.line.start + e.line.length, v)]) (runCount : Nat) {hb : List HbGlyph}
    (hhb : e.shape f v e.line.start (e.line.start + e.line.length) = hb) {first : HbGlyph} (hfirst : hb[0]? = some first) :
    ∃ gs ex ey height ascent hi total,
      buildParagraph e [(e.line.start + e.line.length, v)] runCount =
        some ([.run f gs ex ey e.line.start (e.line.start + e.line.length) (e.reversed v), .line height ascent], hi, total) ∧
      gs.length = hb.length ∧ ey = -((penY hb hb.length : Int) : Rat) / 64 + (first.yOffset : Rat) / 64 ∧
      ∀ (i : Nat) (g : HbGlyph), hb[i]? = some g → gs[i]? = some ⟨g.glyph, e.line.start + g.cluster,
        (hbPlace hb i g).1, (hbPlace hb i g).2 + (first.yOffset : Rat) / 64⟩ := by
  subst hhb
  obtain ⟨gs, ex, ey, z, height, ascent, hi, total, h1, h2, _, h3, h4⟩ := oneRun_spec hone h runCount hfirst
  rw [hd] at h3
  refine ⟨gs, ex, ey, height, ascent, hi, total, h1, h2, ?_, ?_⟩
  · rw [h3]
    simp only [placeAt, if_true]
    push_cast [penAlong, penY, HbGlyph.advPrimary, HbGlyph.offPrimary]
    simp only [if_true]
    ring
  · intro i g hg
    obtain ⟨q, hq, h5⟩ := h4 i g hg
    rw [hd] at hq
    rw [h5, hq]
    simp only [placeAt, if_true, hbPlace, penAlong, penAcross, penX, penY,
      HbGlyph.advPrimary, HbGlyph.offPrimary, HbGlyph.advSecondary, HbGlyph.offSecondary]
    congr 2
    push_cast; ring

/-- Full claim: every glyph stands at the pen position moved by its offsets, and the next
run starts at the pen position behind the run.  What holds: the claim, if the first glyph
has no offset along the line and no glyph is moved across the line.  Missing: the other
cases, see `C73_first_offset_violated` and `C73_upside_down_violated`. -/
theorem C73_place_partial {e : ParaEnv β φ} {v : β} {f : φ} (hone : e.OneRun v f) (hd : e.vertical = false)
    (h : e.OK [(e.line.start + e.line.length, v)]) (runCount : Nat) {hb : List HbGlyph}
    (hhb : e.shape f v e.line.start (e.line.start + e.line.length) = hb) {first : HbGlyph} (hfirst : hb[0]? = some first)
    (hx : first.xOffset = 0) (hy : ∀ g ∈ hb, g.yAdvance = 0 ∧ g.yOffset = 0) :
    ∃ gs ex ey height ascent hi total,
      buildParagraph e [(e.line.start + e.line.length, v)] runCount =
        some ([.run f gs ex ey e.line.start (e.line.start + e.line.length) (e.reversed v), .line height ascent], hi, total) ∧
      gs.length = hb.length ∧ ex = ((penX hb hb.length : Int) : Rat) / 64 ∧
      ∀ (i : Nat) (g : HbGlyph), hb[i]? = some g → gs[i]? = some ⟨g.glyph, e.line.start + g.cluster,
        (hbPlace hb i g).1, (hbPlace hb i g).2⟩ := by
  obtain ⟨gs, ex, ey, height, ascent, hi, total, h1, h2, h3, h4⟩ := C73_positions hone hd h runCount hhb hfirst
  refine ⟨gs, ex, ey, height, ascent, hi, total, h1, h2, ?_, ?_⟩
  · rw [h3, hx]; simp
  · intro i g hg
    have hp : penY hb i = 0 := by
      unfold penY
      apply List.sum_eq_zero
      intro x hx'
      obtain ⟨k, hk, rfl⟩ := List.mem_map.1 hx'
      exact (hy k (List.mem_of_mem_take hk)).1
    rw [h4 i g hg, hx]
    simp [hbPlace, hp, (hy g (List.mem_of_getElem? hg)).2]

/-- Glyphs keep their distances: between any two glyphs of the run. -/
theorem C73_distances {e : ParaEnv β φ} {v : β} {f : φ} (hone : e.OneRun v f) (hd : e.vertical = false)
    (h : e.OK [(e.line.start + e.line.length, v)]) (runCount : Nat) {hb : List HbGlyph}
    (hhb : e.shape f v e.line.start (e.line.start + e.line.length) = hb) (hne : hb ≠ []) :
    ∃ gs ex ey height ascent hi total,
      buildParagraph e [(e.line.start + e.line.length, v)] runCount =
        some ([.run f gs ex ey e.line.start (e.line.start + e.line.length) (e.reversed v), .line height ascent], hi, total) ∧
      ∀ (i j : Nat) (g k : HbGlyph), hb[i]? = some g → hb[j]? = some k → ∃ a b, gs[i]? = some a ∧ gs[j]? = some b ∧
        b.x - a.x = (hbPlace hb j k).1 - (hbPlace hb i g).1 := by
  obtain ⟨first, t, rfl⟩ := List.exists_cons_of_ne_nil hne
  obtain ⟨gs, ex, ey, height, ascent, hi, total, h1, h2, h3, h4⟩ := C73_positions hone hd h runCount hhb (first := first) rfl
  refine ⟨gs, ex, ey, height, ascent, hi, total, h1, fun i j g k hg hk => ⟨_, _, h4 i g hg, h4 j k hk, ?_⟩⟩
  simp only
  ring

/-- Right-to-left text in which every second character is a mark, three pixels to the
right of the letter before it and two above. -/
def markEnv (start length : Nat) : ParaEnv (Nat × Bool) Nat :=
  { demoEnv start length fun s t => [⟨s, t - s, 1⟩] with
    shape := fun _ v a b => revIf v.2 ((List.range (b - a)).map fun i =>
      if (a + i) % 2 = 1 then ⟨200, i, 0, 0, 192, 128⟩ else ⟨100, i, 640, 0, 0, 0⟩) }

theorem markEnv_ok (start length : Nat) (hl : 0 < length) : (markEnv start length).OK [(start + length, (0, true))] := by
  refine ⟨hl, ⟨?_, ?_, ?_⟩, ⟨by simp [List.Pairwise.nil], rfl⟩, ?_, ?_, Or.inl fun _ => rfl, ?_⟩
  · intro v o l h; exact ⟨h, Nat.le_refl _⟩
  · intro f v a b hab g hg
    simp only [markEnv] at hg
    have hg : g ∈ (List.range (b - a)).map fun i =>
        if (a + i) % 2 = 1 then (⟨200, i, 0, 0, 192, 128⟩ : HbGlyph) else ⟨100, i, 640, 0, 0, 0⟩ := by
      unfold revIf at hg; split at hg
      · exact List.mem_reverse.1 hg
      · exact hg
    obtain ⟨i, hi, rfl⟩ := List.mem_map.1 hg
    have := List.mem_range.1 hi
    split <;> exact this
  · intro f v a b hab
    have : ((List.range (b - a)).map fun i =>
        if (a + i) % 2 = 1 then (⟨200, i, 0, 0, 192, 128⟩ : HbGlyph) else ⟨100, i, 640, 0, 0, 0⟩).Pairwise
        (fun g h => g.cluster ≤ h.cluster) := by
      rw [List.pairwise_map]
      refine List.pairwise_lt_range.imp fun h => ?_
      split <;> split <;> exact Nat.le_of_lt h
    obtain ⟨v1, v2⟩ := v
    cases v2
    · exact this
    · exact List.pairwise_reverse.2 this
  · intro i; simp only [markEnv, demoEnv]; split <;> omega
  · intro i hi; simp only [markEnv, demoEnv] at hi ⊢; omega
  · intro s t _ h2 _
    exact Partition.single (by simp [BidiRun.range]; omega) h2

theorem markEnv_one (start length : Nat) : (markEnv start length).OneRun (0, true) 0 :=
  ⟨rfl, rfl, fun _ => rfl, fun _ => rfl, 1, rfl, by simp [markEnv, demoEnv]⟩

/-- A letter with a mark in right-to-left text: HarfBuzz puts the letter at 0 and the mark
at 3; the builder puts the mark at 0 and the letter at -3, outside the text area; whatever
follows on the line starts 3 pixels early, inside the letter. -/
theorem C73_first_offset_violated : ∃ (e : ParaEnv (Nat × Bool) Nat) (hb : List HbGlyph) (gs : List GlyphSpec) (ex ey height ascent : Rat)
    (rest : Nat × Nat), e.OK [(2, (0, true))] ∧ e.OneRun (0, true) 0 ∧ e.shape 0 (0, true) 0 2 = hb ∧
    buildParagraph e [(2, (0, true))] 0 = some ([.run 0 gs ex ey 0 2 true, .line height ascent], rest) ∧
    (List.range 2).map (fun i => (hb[i]?).map fun g => (hbPlace hb i g).1) = [some 3, some 0] ∧
    gs.map (·.x) = [0, -3] ∧ ((penX hb 2 : Int) : Rat) / 64 = 10 ∧ ex = 7 :=
  ⟨markEnv 0 2, _, [⟨200, 1, 0, 2⟩, ⟨100, 0, -3, 0⟩], 7, 0, 12, 10, (0, 1), markEnv_ok 0 2 (by decide), markEnv_one 0 2, rfl,
    by decide +kernel, by decide +kernel, by decide +kernel, by decide +kernel, rfl⟩

/-- The same mark is raised two pixels by HarfBuzz and put two pixels below the baseline. -/
theorem C73_upside_down_violated : ∃ (e : ParaEnv (Nat × Bool) Nat) (hb : List HbGlyph) (gs : List GlyphSpec) (ex ey height ascent : Rat)
    (rest : Nat × Nat), e.OK [(2, (0, true))] ∧ e.OneRun (0, true) 0 ∧ e.shape 0 (0, true) 0 2 = hb ∧
    buildParagraph e [(2, (0, true))] 0 = some ([.run 0 gs ex ey 0 2 true, .line height ascent], rest) ∧
    (List.range 2).map (fun i => (hb[i]?).map fun g => (hbPlace hb i g).2) = [some (-2), some 0] ∧ gs.map (·.y) = [2, 0] :=
  ⟨markEnv 0 2, _, [⟨200, 1, 0, 2⟩, ⟨100, 0, -3, 0⟩], 7, 0, 12, 10, (0, 1), markEnv_ok 0 2 (by decide), markEnv_one 0 2, rfl,
    by decide +kernel, by decide +kernel, by decide +kernel⟩

example : (demoEnv 3 6 fun s t => [⟨s, t - s, 0⟩]).OneRun (0, false) 0 ∧
    (demoEnv 3 6 fun s t => [⟨s, t - s, 0⟩]).OK [(9, (0, false))] ∧
    (∀ g ∈ (demoEnv 3 6 fun s t => [⟨s, t - s, 0⟩]).shape 0 (0, false) 3 9, g.yAdvance = 0 ∧ g.yOffset = 0) := by
  refine ⟨⟨rfl, rfl, fun _ => rfl, fun _ => rfl, 0, rfl, by simp [demoEnv]⟩,
    demoEnv_ok 3 6 _ _ (by omega) ⟨by decide, rfl⟩ ?_, by decide +kernel⟩
  intro s t h1 h2 h3
  exact Partition.single (by simp [BidiRun.range]; omega) h2

/-- Vertical text: each glyph is 20 pixels high, its origin 16 pixels below and 5 to the left. -/
def verticalEnv (start length : Nat) : ParaEnv (Nat × Bool) Nat :=
  { demoEnv start length fun s t => [⟨s, t - s, 0⟩] with
    vertical := true
    shape := fun _ v a b => revIf v.2 ((List.range (b - a)).map fun i => ⟨100 + i, i, 0, -1280, -320, -1024⟩) }

example : (buildParagraph (verticalEnv 0 3) [(3, (0, false))] 0).map (·.1) =
    some [.run 0 [⟨100, 0, -5, 0⟩, ⟨101, 1, -5, 20⟩, ⟨102, 2, -5, 40⟩] 0 44 0 3 false, .line 12 10] := by decide +kernel

theorem verticalEnv_ok (start length : Nat) (hl : 0 < length) (calls : List (Nat × (Nat × Bool)))
    (hc : CallsTo (start + length) calls) : (verticalEnv start length).OK calls := by
  refine ⟨hl, ⟨?_, ?_, ?_⟩, hc, ?_, ?_, Or.inl fun _ => rfl, ?_⟩
  · intro v o l h; exact ⟨h, Nat.le_refl _⟩
  · intro f v a b hab g hg
    simp only [verticalEnv] at hg
    have hg : g ∈ (List.range (b - a)).map fun i => (⟨100 + i, i, 0, -1280, -320, -1024⟩ : HbGlyph) := by
      unfold revIf at hg; split at hg
      · exact List.mem_reverse.1 hg
      · exact hg
    obtain ⟨i, hi, rfl⟩ := List.mem_map.1 hg
    exact List.mem_range.1 hi
  · intro f v a b hab
    have : ((List.range (b - a)).map fun i => (⟨100 + i, i, 0, -1280, -320, -1024⟩ : HbGlyph)).Pairwise
        (fun g h => g.cluster ≤ h.cluster) := by
      rw [List.pairwise_map]
      exact List.pairwise_lt_range.imp fun h => Nat.le_of_lt h
    obtain ⟨v1, v2⟩ := v
    cases v2
    · exact this
    · exact List.pairwise_reverse.2 this
  · intro i; simp only [verticalEnv, demoEnv]; split <;> omega
  · intro i hi; simp only [verticalEnv, demoEnv] at hi ⊢; omega
  · intro s t _ h2 _
    exact Partition.single (by simp [BidiRun.range]; omega) h2

/-- Two characters of vertical text in two fonts, each 20 pixels high: the second starts 4
pixels below the first. -/
theorem C73_vertical_overlap_violated : ∃ (e : ParaEnv (Nat × Bool) Nat) (rest : Nat × Nat) (a b : Rat),
    e.OK [(1, (0, false)), (2, (1, false))] ∧
    (∀ f v s t, ∀ g ∈ e.shape f v s t, g.yAdvance = -(20 * 64)) ∧
    buildParagraph e [(1, (0, false)), (2, (1, false))] 0 = some ([.run 0 [⟨100, 0, -5, 0⟩] (-5) 4 0 1 false,
      .run 1 [⟨100, 1, -5, 4⟩] 0 8 1 2 false, .line a b], rest) := by
  refine ⟨verticalEnv 0 2, (1, 2), 13, 11, verticalEnv_ok 0 2 (by decide) _ ⟨by decide, rfl⟩, ?_, by decide +kernel⟩
  intro f v s t g hg
  simp only [verticalEnv] at hg
  have hg : g ∈ (List.range (t - s)).map fun i => (⟨100 + i, i, 0, -1280, -320, -1024⟩ : HbGlyph) := by
    unfold revIf at hg; split at hg
    · exact List.mem_reverse.1 hg
    · exact hg
  obtain ⟨i, _, rfl⟩ := List.mem_map.1 hg
  rfl

end RichText
