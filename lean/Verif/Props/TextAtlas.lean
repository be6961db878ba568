import Verif.Spec.TextAtlas
/-!
C55: packing of the texture atlas; C67: its maps.
-/
namespace RichText

/-- A bitmap was put on page `p`: it is in a finished line, or in the current one
before `p.x`. -/
def AtlasPage.Holds (pad : Nat) (p : AtlasPage) (q : Place) : Prop :=
  q.y + q.h + pad ≤ p.y ∨ (q.y = p.y ∧ q.x + q.w + pad ≤ p.x ∧ q.h + pad ≤ p.lineHeight)

/-- The pages after the uploads `hist`. -/
structure Packed (pad : Nat) (pages : List AtlasPage) (hist : List (Upload × Place)) : Prop where
  bounds : ∀ p ∈ pages, p.x ≤ 2048 + pad ∧ p.y ≤ 2048 ∧ p.lineHeight ≤ 2048 + pad
  held : ∀ u q, (u, q) ∈ hist → q.w = u.w ∧ q.h = u.h ∧ q.Inside ∧
    ∃ p, pages[q.page]? = some p ∧ p.hasColor = u.hasColor ∧ p.Holds pad q
  apart : ∀ (i j : Nat) (a b : Upload × Place), hist[i]? = some a → hist[j]? = some b → i ≠ j → a.2.page = b.2.page → a.2.Apart pad b.2

theorem wrap32_small {n : Nat} (h : n < 4294967296) : wrap32 n = n := Nat.mod_eq_of_lt h

theorem Place.Apart.symm {pad : Nat} {a b : Place} (h : a.Apart pad b) : b.Apart pad a := by
  rcases h with h | h | h | h
  · exact Or.inr (Or.inl h)
  · exact Or.inl h
  · exact Or.inr (Or.inr (Or.inr h))
  · exact Or.inr (Or.inr (Or.inl h))

/-- What `get_or_create_target_page` gives. -/
theorem targetPage_spec (pages : List AtlasPage) (w h : Nat) (c : Bool) :
    ∃ p, (targetPage pages w h c).1[(targetPage pages w h c).2]? = some p ∧ p.hasColor = c ∧
      ((targetPage pages w h c).1 = pages ∧ p.fits w h = true ∨
        (targetPage pages w h c).1 = pages ++ [⟨0, 0, 0, c⟩] ∧ (targetPage pages w h c).2 = pages.length ∧ p = ⟨0, 0, 0, c⟩ ∧
          ∀ q ∈ pages, q.hasColor = c → q.fits w h = false) := by
  unfold targetPage
  cases hf : pages.findIdx? fun p => p.hasColor == c && p.fits w h with
  | none =>
    refine ⟨⟨0, 0, 0, c⟩, by simp, rfl, Or.inr ⟨rfl, rfl, rfl, ?_⟩⟩
    intro q hq hc
    rw [List.findIdx?_eq_none_iff] at hf
    have := hf q hq
    simpa [hc] using this
  | some i =>
    rw [List.findIdx?_eq_some_iff_getElem] at hf
    obtain ⟨hi, h1, -⟩ := hf
    simp only [Bool.and_eq_true, beq_iff_eq] at h1
    exact ⟨pages[i], by simp [hi], h1.1, Or.inl ⟨rfl, h1.2⟩⟩

/-- One upload. -/
theorem uploadGlyph_packed {pad : Nat} {pages : List AtlasPage} {hist : List (Upload × Place)} (hpad : pad < 2147480000)
    (h : Packed pad pages hist) (u : Upload) (hw : u.w ≤ 2048) (hh : u.h ≤ 2048) :
    ∃ pages' q, uploadGlyph pad pages u.w u.h u.hasColor = some (pages', q) ∧ Packed pad pages' (hist ++ [(u, q)]) := by
  unfold uploadGlyph
  have ew : wrap32 (u.w + pad) = u.w + pad := wrap32_small (by omega)
  have eh : wrap32 (u.h + pad) = u.h + pad := wrap32_small (by omega)
  rw [ew, eh]
  obtain ⟨p, hp, hcol, hcase⟩ := targetPage_spec pages (u.w + pad) (u.h + pad) u.hasColor
  simp only
  generalize targetPage pages (u.w + pad) (u.h + pad) u.hasColor = tp at hp hcase ⊢
  obtain ⟨pg, i⟩ := tp
  simp only at hp hcase ⊢
  rw [hp]
  simp only
  refine ⟨_, _, rfl, ?_⟩
  have hpgs : ∃ ext, pg = pages ++ ext ∧ ∀ q ∈ pg, q.x ≤ 2048 + pad ∧ q.y ≤ 2048 ∧ q.lineHeight ≤ 2048 + pad := by
    rcases hcase with ⟨e, -⟩ | ⟨e, -⟩
    · exact ⟨[], by rw [e, List.append_nil], by rw [e]; exact h.bounds⟩
    · refine ⟨_, e, ?_⟩
      intro q hq
      rw [e, List.mem_append, List.mem_singleton] at hq
      rcases hq with hq | rfl
      · exact h.bounds q hq
      · simp
  obtain ⟨ext, hext, hbnd⟩ := hpgs
  have hpb := hbnd p (List.mem_of_getElem? hp)
  have hpi : i < pg.length := (List.getElem?_eq_some_iff.1 hp).1
  -- where the bitmap goes
  have hgo : let p' := p.wrapLine (u.w + pad) (u.h + pad)
      p'.hasColor = p.hasColor ∧ p'.x + u.w ≤ 2048 ∧ p'.y + u.h ≤ 2048 ∧ p'.x + u.w + pad ≤ 2048 + pad ∧
      p'.lineHeight ≤ 2048 + pad ∧ (∀ q, p.Holds pad q → p'.Holds pad q) ∧
      (p' = p ∨ p'.x = 0) := by
    simp only
    unfold AtlasPage.wrapLine
    have ex : wrap32 (p.x + (u.w + pad)) = p.x + (u.w + pad) := wrap32_small (by omega)
    have ey : wrap32 (p.y + p.lineHeight) = p.y + p.lineHeight := wrap32_small (by omega)
    rw [ex, ey]
    unfold atlasExtent
    have hfit : (p.x + (u.w + pad) ≤ 2048 ∧ p.y + (u.h + pad) ≤ 2048) ∨ p.y + p.lineHeight + (u.h + pad) ≤ 2048 ∨ (p.x = 0 ∧ p.y = 0 ∧ p.lineHeight = 0) := by
      rcases hcase with ⟨-, hf⟩ | ⟨-, -, hf, -⟩
      · unfold AtlasPage.fits atlasExtent at hf
        rw [ex, ey, wrap32_small (show p.y + (u.h + pad) < 4294967296 by omega),
          wrap32_small (show p.y + p.lineHeight + (u.h + pad) < 4294967296 by omega)] at hf
        simp only [Bool.or_eq_true, Bool.and_eq_true, decide_eq_true_eq] at hf
        rcases hf with hf | hf
        · exact Or.inl hf
        · exact Or.inr (Or.inl hf.2)
      · rw [hf]; exact Or.inr (Or.inr ⟨rfl, rfl, rfl⟩)
    split
    · refine ⟨rfl, by simp only; omega, by simp only; omega, by simp only; omega, by simp only; omega, ?_, Or.inr rfl⟩
      intro q hq
      unfold AtlasPage.Holds at hq ⊢
      simp only
      omega
    · exact ⟨rfl, by omega, by omega, by omega, hpb.2.2, fun q hq => hq, Or.inl rfl⟩
  simp only at hgo
  generalize p.wrapLine (u.w + pad) (u.h + pad) = p' at hgo
  obtain ⟨g1, g2, g3, g4, g5, g6, g7⟩ := hgo
  have ex' : wrap32 (p'.x + (u.w + pad)) = p'.x + (u.w + pad) := wrap32_small (by omega)
  rw [ex']
  have hkeep : ∀ q : Place, p'.Holds pad q → AtlasPage.Holds pad
      { p' with x := p'.x + (u.w + pad), lineHeight := if p'.lineHeight < u.h + pad then u.h + pad else p'.lineHeight } q := by
    intro q hq
    unfold AtlasPage.Holds at hq ⊢
    simp only
    split <;> omega
  have hpages : ∀ (q : Place) p0, pages[q.page]? = some p0 → p0.Holds pad q →
      ∃ p1, (pg.set i { p' with x := p'.x + (u.w + pad), lineHeight := if p'.lineHeight < u.h + pad then u.h + pad else p'.lineHeight })[q.page]?
        = some p1 ∧ p1.hasColor = p0.hasColor ∧ p1.Holds pad q := by
    intro q p0 h0 hq
    have h1 : pg[q.page]? = some p0 := by
      rw [hext, List.getElem?_append_left (List.getElem?_eq_some_iff.1 h0).1]; exact h0
    by_cases hi : i = q.page
    · rw [hi] at hp
      rw [h1] at hp
      cases hp
      rw [← hi]
      exact ⟨_, List.getElem?_set_self hpi, g1, hkeep q (g6 q hq)⟩
    · exact ⟨p0, by rw [List.getElem?_set_ne hi]; exact h1, rfl, hq⟩
  have hnew : ∀ (q : Place), q.page = i → ∀ p0, pages[q.page]? = some p0 → p0.Holds pad q →
      q.Apart pad ⟨i, p'.x, p'.y, u.w, u.h⟩ := by
    intro q hi p0 h0 hq
    have h1 : pg[q.page]? = some p0 := by
      rw [hext, List.getElem?_append_left (List.getElem?_eq_some_iff.1 h0).1]; exact h0
    rw [hi, hp] at h1
    cases h1
    have := g6 q hq
    unfold AtlasPage.Holds at this
    unfold Place.Apart
    simp only
    omega
  refine ⟨?_, ?_, ?_⟩
  · intro q hq
    rcases List.mem_or_eq_of_mem_set hq with hq | rfl
    · exact hbnd q hq
    · simp only
      split <;> omega
  · intro v q hq
    rw [List.mem_append, List.mem_singleton] at hq
    rcases hq with hq | hq
    · obtain ⟨a1, a2, a3, p0, a4, a5, a6⟩ := h.held v q hq
      obtain ⟨p1, b1, b2, b3⟩ := hpages q p0 a4 a6
      exact ⟨a1, a2, a3, p1, b1, b2.trans a5, b3⟩
    · cases hq
      refine ⟨rfl, rfl, ⟨g2, g3⟩, _, List.getElem?_set_self hpi, g1.trans hcol, Or.inr ⟨rfl, ?_, ?_⟩⟩
      · simp only; omega
      · simp only
        split <;> omega
  · intro a b x y hx hy hab hpage
    have hsplit : ∀ {k : Nat} {z : Upload × Place}, (hist ++ [(u, ⟨i, p'.x, p'.y, u.w, u.h⟩)])[k]? = some z →
        hist[k]? = some z ∨ (k = hist.length ∧ z = (u, ⟨i, p'.x, p'.y, u.w, u.h⟩)) := by
      intro k z hz
      rcases Nat.lt_or_ge k hist.length with hk | hk
      · left; rw [List.getElem?_append_left hk] at hz; exact hz
      · right
        rw [List.getElem?_append_right hk] at hz
        have := (List.getElem?_eq_some_iff.1 hz).1
        simp only [List.length_singleton] at this
        have hk' : k = hist.length := by omega
        subst hk'
        simp only [Nat.sub_self, List.getElem?_cons_zero, Option.some.injEq] at hz
        exact ⟨rfl, hz.symm⟩
    rcases hsplit hx with hx | ⟨rfl, rfl⟩ <;> rcases hsplit hy with hy | ⟨rfl, rfl⟩
    · exact h.apart a b x y hx hy hab hpage
    · obtain ⟨-, -, -, p0, a4, -, a6⟩ := h.held x.1 x.2 (List.mem_of_getElem? hx)
      exact hnew x.2 hpage p0 a4 a6
    · obtain ⟨-, -, -, p0, a4, -, a6⟩ := h.held y.1 y.2 (List.mem_of_getElem? hy)
      exact (hnew y.2 hpage.symm p0 a4 a6).symm
    · omega

theorem uploadAll_packed {pad : Nat} (hpad : pad < 2147480000) : ∀ (us : List Upload) {pages : List AtlasPage} {hist : List (Upload × Place)},
    Packed pad pages hist → (∀ u ∈ us, u.w ≤ 2048 ∧ u.h ≤ 2048) →
    ∃ pages' ps, uploadAll pad pages us = some (pages', ps) ∧ ps.length = us.length ∧ Packed pad pages' (hist ++ us.zip ps)
  | [], pages, hist, h, _ => ⟨pages, [], rfl, rfl, by simpa using h⟩
  | u :: us, pages, hist, h, hu => by
    obtain ⟨pages1, q, h1, h2⟩ := uploadGlyph_packed hpad h u (hu u (by simp)).1 (hu u (by simp)).2
    obtain ⟨pages2, ps, h3, h4, h5⟩ := uploadAll_packed hpad us h2 (fun v hv => hu v (by simp [hv]))
    refine ⟨pages2, q :: ps, ?_, by simp [h4], ?_⟩
    · simp only [uploadAll]
      rw [h1]
      simp only
      rw [h3]
    · rw [List.append_assoc] at h5
      exact h5

theorem packed_nil (pad : Nat) : Packed pad [] [] where
  bounds := by simp
  held := by simp
  apart := by simp

/-! ## C55 -/

/-- C55: every sequence of bitmaps not larger than a page can be put into the atlas;
every bitmap gets a rectangle of its size inside a page.  Two on the same page do not
overlap, even with the padding, and are both with or both without colours.  (The
padding is 1 in one atlas, 2 in the other.) -/
theorem C55_pack (pad : Nat) (hpad : pad ≤ 2) (us : List Upload) (hu : ∀ u ∈ us, u.w ≤ 2048 ∧ u.h ≤ 2048) :
    ∃ pages ps, uploadAll pad [] us = some (pages, ps) ∧ ps.length = us.length ∧
      (∀ (i : Nat) (u : Upload) (p : Place), us[i]? = some u → ps[i]? = some p → p.w = u.w ∧ p.h = u.h ∧ p.Inside ∧ p.page < pages.length) ∧
      ∀ (i j : Nat) (u v : Upload) (p q : Place), us[i]? = some u → us[j]? = some v → ps[i]? = some p → ps[j]? = some q → i ≠ j →
        p.page = q.page → p.Apart pad q ∧ u.hasColor = v.hasColor := by
  obtain ⟨pages, ps, h1, h2, h3⟩ := uploadAll_packed (pad := pad) (by omega) us (packed_nil pad) hu
  simp only [List.nil_append] at h3
  have hz : ∀ {i : Nat} {u : Upload} {p : Place}, us[i]? = some u → ps[i]? = some p → (us.zip ps)[i]? = some (u, p) := by
    intro i u p hi hp
    rw [List.getElem?_zip_eq_some]
    exact ⟨hi, hp⟩
  refine ⟨pages, ps, h1, h2, ?_, ?_⟩
  · intro i u p hi hp
    obtain ⟨a1, a2, a3, p0, a4, -, -⟩ := h3.held u p (List.mem_of_getElem? (hz hi hp))
    exact ⟨a1, a2, a3, (List.getElem?_eq_some_iff.1 a4).1⟩
  · intro i j u v p q hi hj hp hq hij hpage
    refine ⟨h3.apart i j _ _ (hz hi hp) (hz hj hq) hij hpage, ?_⟩
    obtain ⟨-, -, -, p0, a4, a5, -⟩ := h3.held u p (List.mem_of_getElem? (hz hi hp))
    obtain ⟨-, -, -, q0, b4, b5, -⟩ := h3.held v q (List.mem_of_getElem? (hz hj hq))
    rw [hpage, b4] at a4
    cases a4
    exact a5.symm.trans b5

/-- C55: a page is added only if there is no room on the pages of that kind, neither
in the current line nor for a new one. -/
theorem C55_reuse {pad : Nat} {pages pages' : List AtlasPage} {u : Upload} {q : Place} (hpad : pad ≤ 2) (hw : u.w ≤ 2048) (hh : u.h ≤ 2048)
    (h : uploadGlyph pad pages u.w u.h u.hasColor = some (pages', q)) {p : AtlasPage} (hp : p ∈ pages) (hc : p.hasColor = u.hasColor)
    (hpx : p.x ≤ 4096 ∧ p.y ≤ 4096 ∧ p.lineHeight ≤ 4096)
    (hroom : (p.x + u.w + pad ≤ 2048 ∧ p.y + u.h + pad ≤ 2048) ∨ (u.w + pad ≤ 2048 ∧ p.y + p.lineHeight + u.h + pad ≤ 2048)) :
    pages'.length = pages.length ∧ q.page < pages.length := by
  unfold uploadGlyph at h
  rw [wrap32_small (show u.w + pad < 4294967296 by omega), wrap32_small (show u.h + pad < 4294967296 by omega)] at h
  obtain ⟨p', hp', -, hcase⟩ := targetPage_spec pages (u.w + pad) (u.h + pad) u.hasColor
  simp only at h
  generalize targetPage pages (u.w + pad) (u.h + pad) u.hasColor = tp at hp' hcase h
  obtain ⟨pg, i⟩ := tp
  simp only at hp' hcase h
  rw [hp'] at h
  simp only at h
  cases h
  rcases hcase with ⟨rfl, -⟩ | ⟨-, -, -, hno⟩
  · exact ⟨by simp, (List.getElem?_eq_some_iff.1 hp').1⟩
  · exfalso
    have := hno p hp hc
    unfold AtlasPage.fits atlasExtent at this
    rw [wrap32_small (show p.x + (u.w + pad) < 4294967296 by omega), wrap32_small (show p.y + (u.h + pad) < 4294967296 by omega),
      wrap32_small (show p.y + p.lineHeight < 4294967296 by omega),
      wrap32_small (show p.y + p.lineHeight + (u.h + pad) < 4294967296 by omega)] at this
    simp only [Bool.or_eq_false_iff, Bool.and_eq_false_imp, decide_eq_true_eq, decide_eq_false_iff_not] at this
    omega

/-- Three lines of glyphs, one with colours, and one as large as a page. -/
example : (uploadAll 1 [] [⟨1000, 10, false⟩, ⟨1000, 30, false⟩, ⟨500, 20, false⟩, ⟨20, 20, true⟩, ⟨2048, 2048, false⟩, ⟨1600, 5, false⟩]).map (·.2) =
    some [⟨0, 0, 0, 1000, 10⟩, ⟨0, 1001, 0, 1000, 30⟩, ⟨0, 0, 31, 500, 20⟩, ⟨1, 0, 0, 20, 20⟩, ⟨2, 0, 0, 2048, 2048⟩, ⟨0, 0, 52, 1600, 5⟩] := by
  decide +kernel

/-- A bitmap larger than the page is not refused, but written over its edge. -/
example : ((uploadAll 1 [] [⟨3000, 10, false⟩]).map (·.2)) = some [⟨0, 0, 0, 3000, 10⟩] := by decide +kernel

/-! ## C67 -/

/-- What the maps remember of a bitmap. -/
def Remembers (ra : Raster) (info : GlyphInfo) (hist : List (Upload × Place)) (i : Nat) : Prop :=
  info.width = ra.width ∧ info.height = ra.height ∧ info.offsetX = ra.offsetX ∧ info.offsetY = ra.offsetY ∧
  (info.place = none ↔ ra.width = 0 ∨ ra.height = 0) ∧
  ∀ p, info.place = some p → hist[i]? = some (⟨ra.width, ra.height, ra.hasColor⟩, p)

/-- The key under which a request is remembered. -/
def AtlasRequest.owner : AtlasRequest → Option (GlyphKey ⊕ StrokeKey)
  | .glyph f g => (glyphKey f g).map .inl
  | .stroke f g t j => (strokeKey f g t j).map .inr

/-- The two maps as one. -/
def Atlas.entry (a : Atlas) : GlyphKey ⊕ StrokeKey → Option GlyphInfo
  | .inl k => a.glyphs k
  | .inr k => a.strokes k

/-- `get` in one piece: the cached case. -/
theorem get_cached {env : RasterEnv} {a : Atlas} {r : AtlasRequest} {k : GlyphKey ⊕ StrokeKey} {info : GlyphInfo}
    (hk : r.owner = some k) (he : a.entry k = some info) :
    a.get env r = (cachedAnswer a.pages (env.baseline r.font) info).map fun ans => (a, ans) := by
  cases r with
  | glyph f g =>
    obtain ⟨key, h1, rfl⟩ := Option.map_eq_some_iff.1 hk
    simp only [Atlas.entry] at he
    simp only [Atlas.get, Atlas.getGlyph, h1, he]
    rfl
  | stroke f g t j =>
    obtain ⟨key, h1, rfl⟩ := Option.map_eq_some_iff.1 hk
    simp only [Atlas.entry] at he
    simp only [Atlas.get, Atlas.getStroke, h1, he]
    rfl

/-- `get` in one piece: the first time. -/
theorem get_fresh {env : RasterEnv} {a : Atlas} {r : AtlasRequest} {k : GlyphKey ⊕ StrokeKey}
    (hk : r.owner = some k) (he : a.entry k = none) {pages : List AtlasPage} {info : GlyphInfo}
    (hr : handleRaster a.pages (env.raster r) = some (pages, info)) :
    ∃ a', a.get env r = some (a', ⟨info.place, info.width, info.height, info.offsetX, info.offsetY + env.baseline r.font, (env.raster r).hasColor⟩) ∧
      a'.pages = pages ∧ ∀ k', a'.entry k' = if k' = k then some info else a.entry k' := by
  cases r with
  | glyph f g =>
    obtain ⟨key, h1, rfl⟩ := Option.map_eq_some_iff.1 hk
    simp only [Atlas.entry] at he
    simp only [RasterEnv.raster] at hr
    simp only [Atlas.get, Atlas.getGlyph, h1, he, hr]
    refine ⟨_, rfl, rfl, ?_⟩
    intro k'
    cases k' with
    | inl k' => simp [Atlas.entry]
    | inr k' => simp [Atlas.entry]
  | stroke f g t j =>
    obtain ⟨key, h1, rfl⟩ := Option.map_eq_some_iff.1 hk
    simp only [Atlas.entry] at he
    simp only [RasterEnv.raster] at hr
    simp only [Atlas.get, Atlas.getStroke, h1, he, hr]
    refine ⟨_, rfl, rfl, ?_⟩
    intro k'
    cases k' with
    | inl k' => simp [Atlas.entry]
    | inr k' => simp [Atlas.entry]

theorem get_owner {env : RasterEnv} {a : Atlas} {r : AtlasRequest} (hk : r.owner = none) : a.get env r = none := by
  cases r with
  | glyph f g =>
    have h1 := Option.map_eq_none_iff.1 hk
    simp only [Atlas.get, Atlas.getGlyph, h1]
  | stroke f g t j =>
    have h1 := Option.map_eq_none_iff.1 hk
    simp only [Atlas.get, Atlas.getStroke, h1]

/-- The state after the bitmaps `hist` were uploaded for the keys `owners`. -/
structure AtlasOK (env : RasterEnv) (a : Atlas) (hist : List (Upload × Place)) (owners : List (GlyphKey ⊕ StrokeKey)) : Prop where
  packed : Packed 1 a.pages hist
  length : owners.length = hist.length
  entries : ∀ k info, a.entry k = some info → ∃ r i, AtlasRequest.owner r = some k ∧ Remembers (env.raster r) info hist i ∧
    (info.place ≠ none → owners[i]? = some k)

theorem atlasOK_start (env : RasterEnv) : AtlasOK env {} [] [] where
  packed := packed_nil 1
  length := rfl
  entries := fun k info h => by cases k <;> cases h

theorem Remembers.append {ra : Raster} {info : GlyphInfo} {hist : List (Upload × Place)} {i : Nat} (h : Remembers ra info hist i)
    (ext : List (Upload × Place)) : Remembers ra info (hist ++ ext) i := by
  obtain ⟨h1, h2, h3, h4, h5, h6⟩ := h
  refine ⟨h1, h2, h3, h4, h5, fun p hp => ?_⟩
  have := h6 p hp
  rw [List.getElem?_append_left (List.getElem?_eq_some_iff.1 this).1]
  exact this

theorem getElem?_append_some {α : Type _} {l : List α} {i : Nat} {x : α} (h : l[i]? = some x) (ext : List α) : (l ++ ext)[i]? = some x := by
  rw [List.getElem?_append_left (List.getElem?_eq_some_iff.1 h).1]; exact h

/-- Rendering a bitmap into the atlas. -/
theorem handleRaster_spec {env : RasterEnv} {a : Atlas} {hist : List (Upload × Place)} {owners : List (GlyphKey ⊕ StrokeKey)}
    (h : AtlasOK env a hist owners) (ra : Raster) (hw : ra.width ≤ 2048) (hh : ra.height ≤ 2048) (owner : GlyphKey ⊕ StrokeKey) :
    ∃ pages info ext own, handleRaster a.pages ra = some (pages, info) ∧ Packed 1 pages (hist ++ ext) ∧ own.length = ext.length ∧
      Remembers ra info (hist ++ ext) hist.length ∧ (info.place ≠ none → (owners ++ own)[hist.length]? = some owner) := by
  unfold handleRaster
  split
  · rename_i hpos
    obtain ⟨pages, q, h1, h2⟩ := uploadGlyph_packed (pad := 1) (by decide) h.packed ⟨ra.width, ra.height, ra.hasColor⟩ hw hh
    simp only at h1
    rw [h1]
    refine ⟨pages, _, _, [owner], rfl, h2, rfl, ⟨rfl, rfl, rfl, rfl, ?_, ?_⟩, ?_⟩
    · simp only [reduceCtorEq, false_iff]
      omega
    · intro p hp
      cases hp
      simp
    · intro _
      rw [← h.length]
      simp
  · rename_i hpos
    refine ⟨a.pages, _, [], [], rfl, by rw [List.append_nil]; exact h.packed, rfl, ⟨rfl, rfl, rfl, rfl, ?_, ?_⟩, ?_⟩
    · simp only [true_iff]
      omega
    · intro p hp; cases hp
    · intro hne; exact absurd rfl hne

/-- The answer from the maps. -/
theorem cachedAnswer_spec {pages : List AtlasPage} {hist : List (Upload × Place)} (hp : Packed 1 pages hist) {ra : Raster}
    {info : GlyphInfo} {i : Nat} (hr : Remembers ra info hist i) (base : Rat) :
    cachedAnswer pages base info = if info.place = none then none else
      some ⟨info.place, info.width, info.height, info.offsetX, info.offsetY + base, ra.hasColor⟩ := by
  unfold cachedAnswer
  cases hpl : info.place with
  | none => rfl
  | some pl =>
    obtain ⟨-, -, -, p, h4, h5, -⟩ := hp.held _ _ (List.mem_of_getElem? (hr.2.2.2.2.2 pl hpl))
    simp only
    rw [h4, if_neg (by simp), Option.map_some, h5]

/-- One request. -/
theorem get_ok {env : RasterEnv} {a a' : Atlas} {hist : List (Upload × Place)} {owners : List (GlyphKey ⊕ StrokeKey)} (hs : env.Small)
    (h : AtlasOK env a hist owners) {r : AtlasRequest} {ans : GlyphAnswer} (hg : a.get env r = some (a', ans)) :
    ∃ ext own k info r' i, AtlasOK env a' (hist ++ ext) (owners ++ own) ∧ (∀ k info, a.entry k = some info → a'.entry k = some info) ∧
      r.owner = some k ∧ r'.owner = some k ∧ a'.entry k = some info ∧ Remembers (env.raster r') info (hist ++ ext) i ∧
      (info.place ≠ none → (owners ++ own)[i]? = some k) ∧
      ans = ⟨info.place, info.width, info.height, info.offsetX, info.offsetY + env.baseline r.font, (env.raster r').hasColor⟩ := by
  cases hk : r.owner with
  | none => rw [get_owner hk] at hg; cases hg
  | some k =>
    cases he : a.entry k with
    | some info =>
      obtain ⟨r', i, h1, h2, h3⟩ := h.entries k info he
      rw [get_cached hk he, cachedAnswer_spec h.packed h2] at hg
      split at hg
      · cases hg
      · cases hg
        exact ⟨[], [], k, info, r', i, by simpa using h, fun _ _ h => h, rfl, h1, he, by simpa using h2, by simpa using h3, rfl⟩
    | none =>
      have hsm := hs r
      obtain ⟨pages, info, ext, own, r1, r2, r3, r4, r5⟩ := handleRaster_spec h (env.raster r) hsm.1 hsm.2 k
      obtain ⟨a'', g1, g2, g3⟩ := get_fresh hk he r1
      rw [g1] at hg
      cases hg
      refine ⟨ext, own, k, info, r, hist.length, ⟨by rw [g2]; exact r2, by simp [h.length, r3], ?_⟩, ?_, rfl, hk, by rw [g3, if_pos rfl], r4, r5, rfl⟩
      · intro k' info' hk'
        rw [g3] at hk'
        split at hk'
        · rename_i hkk
          cases hk'
          subst hkk
          exact ⟨r, _, hk, r4, r5⟩
        · obtain ⟨r', i, a1, a2, a3⟩ := h.entries k' info' hk'
          exact ⟨r', i, a1, a2.append ext, fun hn => getElem?_append_some (a3 hn) own⟩
      · intro k' info' hk'
        rw [g3, if_neg]
        · exact hk'
        · rintro rfl
          rw [he] at hk'
          cases hk'

theorem AtlasRun.ok {env : RasterEnv} {a : Atlas} (hs : env.Small) (h : AtlasRun env a) : ∃ hist owners, AtlasOK env a hist owners := by
  induction h with
  | start => exact ⟨[], [], atlasOK_start env⟩
  | step _ hg ih =>
    obtain ⟨hist, owners, h⟩ := ih
    obtain ⟨ext, own, -, -, -, -, h1, -⟩ := get_ok hs h hg
    exact ⟨_, _, h1⟩

theorem Remembers.answered {env : RasterEnv} {r : AtlasRequest} {info : GlyphInfo} {hist : List (Upload × Place)} {i : Nat} {pages : List AtlasPage}
    (hr : Remembers (env.raster r) info hist i) (hp : Packed 1 pages hist) :
    Answered env r ⟨info.place, info.width, info.height, info.offsetX, info.offsetY + env.baseline r.font, (env.raster r).hasColor⟩ := by
  obtain ⟨h1, h2, h3, h4, h5, h6⟩ := hr
  refine ⟨h1, h2, h3, ?_, rfl, h5, ?_⟩
  · simp only [h4]
  · intro p hpl
    obtain ⟨a1, a2, a3, -⟩ := hp.held _ _ (List.mem_of_getElem? (h6 p hpl))
    exact ⟨a1, a2, a3⟩

/-- A request whose key determines the bitmap gets the right answer. -/
theorem get_answered {env : RasterEnv} (hs : env.Small) {a : Atlas} (hrun : AtlasRun env a) {r : AtlasRequest}
    (hkey : ∀ r', r'.owner = r.owner → env.raster r' = env.raster r) :
    (∀ a' ans, a.get env r = some (a', ans) → Answered env r ans) ∧
    (r.font.effectiveSize ≠ none → 0 < (env.raster r).width → 0 < (env.raster r).height → ∃ x, a.get env r = some x) := by
  obtain ⟨hist, owners, h⟩ := hrun.ok hs
  refine ⟨?_, ?_⟩
  · intro a' ans hg
    obtain ⟨ext, own, k, info, r', i, h1, -, h3, h4, -, h6, -, rfl⟩ := get_ok hs h hg
    have hr := hkey r' (h4.trans h3.symm)
    rw [hr] at h6 ⊢
    exact h6.answered h1.packed
  · intro hsz hw hh
    cases hk : r.owner with
    | none =>
      exfalso
      cases r with
      | glyph f g =>
        have h1 := Option.map_eq_none_iff.1 hk
        exact hsz (Option.map_eq_none_iff.1 h1)
      | stroke f g t j =>
        have h1 := Option.map_eq_none_iff.1 hk
        exact hsz (Option.map_eq_none_iff.1 h1)
    | some k =>
      cases he : a.entry k with
      | some info =>
        obtain ⟨r', i, a1, a2, -⟩ := h.entries k info he
        rw [hkey r' (a1.trans hk.symm)] at a2
        rw [get_cached hk he, cachedAnswer_spec h.packed a2, if_neg]
        · exact ⟨_, rfl⟩
        · intro hn
          have := a2.2.2.2.2.1.1 hn
          omega
      | none =>
        have hsm := hs r
        obtain ⟨pages, info, ext, own, r1, -⟩ := handleRaster_spec h (env.raster r) hsm.1 hsm.2 k
        obtain ⟨a'', g1, -⟩ := get_fresh hk he r1
        exact ⟨_, g1⟩

/-- C67: after every history of requests, an answer for a glyph is right: that of its
own bitmap, if FreeType's bitmap depends only on face, effective size, weight, style
and glyph.  It is defined if the size is, unless the bitmap is empty (see
`C67_empty_violated`). -/
theorem C67_glyph (env : RasterEnv) (hs : env.Small)
    (hkey : ∀ (f : SingleScriptFont) (g : Nat) (f' : SingleScriptFont), f.face.handle = f'.face.handle → f.effectiveSize = f'.effectiveSize →
      f.weight = f'.weight → f.style = f'.style → env.glyph f g = env.glyph f' g)
    (a : Atlas) (hrun : AtlasRun env a) (f : SingleScriptFont) (g : Nat) (hsize : f.effectiveSize ≠ none) :
    (∀ a' ans, a.getGlyph env f g = some (a', ans) → Answered env (.glyph f g) ans) ∧
    (0 < (env.glyph f g).width → 0 < (env.glyph f g).height → ∃ x, a.getGlyph env f g = some x) := by
  obtain ⟨sz, hsz⟩ := Option.ne_none_iff_exists'.1 hsize
  have := get_answered (r := .glyph f g) hs hrun (by
    intro r' hr'
    cases r' with
    | glyph f' g' =>
      simp only [AtlasRequest.owner, glyphKey, hsz, Option.map_some, Option.map_eq_some_iff] at hr'
      obtain ⟨k, ⟨s, h1, rfl⟩, h2⟩ := hr'
      simp only [Sum.inl.injEq, GlyphKey.mk.injEq] at h2
      obtain ⟨rfl, rfl, h3, h4, h5⟩ := h2
      exact hkey f' g' f h3 (h1.trans hsz.symm) h4 h5
    | stroke f' g' t j =>
      simp only [AtlasRequest.owner, glyphKey, hsz, Option.map_some, Option.map_eq_some_iff] at hr'
      obtain ⟨k, -, h2⟩ := hr'
      cases h2)
  exact ⟨this.1, this.2 hsize⟩

/-- C67 for strokes (partial: if the stroke does not depend on weight and style;
otherwise see `C67_stroke_violated`). -/
theorem C67_stroke_partial (env : RasterEnv) (hs : env.Small)
    (hkey : ∀ (f : SingleScriptFont) (g t j : Nat) (f' : SingleScriptFont), f.face.handle = f'.face.handle → f.effectiveSize = f'.effectiveSize →
      env.stroke f g t j = env.stroke f' g t j)
    (a : Atlas) (hrun : AtlasRun env a) (f : SingleScriptFont) (g t j : Nat) (hsize : f.effectiveSize ≠ none) :
    (∀ a' ans, a.getStroke env f g t j = some (a', ans) → Answered env (.stroke f g t j) ans) ∧
    (0 < (env.stroke f g t j).width → 0 < (env.stroke f g t j).height → ∃ x, a.getStroke env f g t j = some x) := by
  obtain ⟨sz, hsz⟩ := Option.ne_none_iff_exists'.1 hsize
  have := get_answered (r := .stroke f g t j) hs hrun (by
    intro r' hr'
    cases r' with
    | stroke f' g' t' j' =>
      simp only [AtlasRequest.owner, strokeKey, hsz, Option.map_some, Option.map_eq_some_iff] at hr'
      obtain ⟨k, ⟨s, h1, rfl⟩, h2⟩ := hr'
      simp only [Sum.inr.injEq, StrokeKey.mk.injEq] at h2
      obtain ⟨rfl, rfl, h3, rfl, rfl⟩ := h2
      exact hkey f' g' t' j' f h3 (h1.trans hsz.symm)
    | glyph f' g' =>
      simp only [AtlasRequest.owner, strokeKey, hsz, Option.map_some, Option.map_eq_some_iff] at hr'
      obtain ⟨k, -, h2⟩ := hr'
      cases h2)
  exact ⟨this.1, this.2 hsize⟩

theorem steps_keep {env : RasterEnv} (hs : env.Small) {a b : Atlas} {hist : List (Upload × Place)} {owners : List (GlyphKey ⊕ StrokeKey)}
    (h : AtlasOK env a hist owners) (hst : AtlasSteps env a b) :
    ∃ ext own, AtlasOK env b (hist ++ ext) (owners ++ own) ∧ ∀ k info, a.entry k = some info → b.entry k = some info := by
  induction hst with
  | refl => exact ⟨[], [], by simpa using h, fun _ _ h => h⟩
  | step _ hg ih =>
    obtain ⟨ext, own, h1, h2⟩ := ih
    obtain ⟨ext', own', -, -, -, -, k1, k2, -⟩ := get_ok hs h1 hg
    exact ⟨ext ++ ext', own ++ own', by simpa using k1, fun k i h => k2 k i (h2 k i h)⟩

/-- C67: whatever is asked in between, the same request gets the same answer, and
the atlas is not changed by it, unless the bitmap is empty. -/
theorem C67_stable (env : RasterEnv) (hs : env.Small) (a a' b : Atlas) (r : AtlasRequest) (ans : GlyphAnswer) (hrun : AtlasRun env a)
    (h : a.get env r = some (a', ans)) (hp : ans.place ≠ none) (hst : AtlasSteps env a' b) : b.get env r = some (b, ans) := by
  obtain ⟨hist, owners, hok⟩ := hrun.ok hs
  obtain ⟨ext, own, k, info, r', i, h1, -, h3, -, h5, h6, -, rfl⟩ := get_ok hs hok h
  obtain ⟨ext', own', k1, k2⟩ := steps_keep hs h1 hst
  rw [get_cached h3 (k2 _ _ h5), cachedAnswer_spec k1.packed (h6.append ext'), if_neg hp]
  rfl

theorem AtlasRequest.Distinct.owner {r r' : AtlasRequest} (h : r.Distinct r') (he : r.owner = r'.owner) (hn : r.owner ≠ none) : False := by
  obtain ⟨k, hk⟩ := Option.ne_none_iff_exists'.1 hn
  rw [hk] at he
  cases r with
  | glyph f g =>
    cases r' with
    | glyph f' g' =>
      simp only [AtlasRequest.owner, glyphKey] at hk he
      obtain ⟨x, h1, rfl⟩ := Option.map_eq_some_iff.1 hk
      obtain ⟨y, h2, h3⟩ := Option.map_eq_some_iff.1 he.symm
      obtain ⟨s, a1, rfl⟩ := Option.map_eq_some_iff.1 h1
      obtain ⟨s', a2, rfl⟩ := Option.map_eq_some_iff.1 h2
      simp only [Sum.inl.injEq, GlyphKey.mk.injEq] at h3
      obtain ⟨rfl, rfl, b3, b4, b5⟩ := h3
      rcases h with h | h | h | h | h
      · exact h b3.symm
      · exact h (a1.trans a2.symm)
      · exact h b4.symm
      · exact h b5.symm
      · exact h rfl
    | stroke f' g' t' j' =>
      obtain ⟨x, h1, rfl⟩ := Option.map_eq_some_iff.1 hk
      obtain ⟨y, h2, h3⟩ := Option.map_eq_some_iff.1 he.symm
      cases h3
  | stroke f g t j =>
    cases r' with
    | stroke f' g' t' j' =>
      simp only [AtlasRequest.owner, strokeKey] at hk he
      obtain ⟨x, h1, rfl⟩ := Option.map_eq_some_iff.1 hk
      obtain ⟨y, h2, h3⟩ := Option.map_eq_some_iff.1 he.symm
      obtain ⟨s, a1, rfl⟩ := Option.map_eq_some_iff.1 h1
      obtain ⟨s', a2, rfl⟩ := Option.map_eq_some_iff.1 h2
      simp only [Sum.inr.injEq, StrokeKey.mk.injEq] at h3
      obtain ⟨rfl, rfl, b3, rfl, rfl⟩ := h3
      rcases h with h | h | h | h | h
      · exact h b3.symm
      · exact h (a1.trans a2.symm)
      · exact h rfl
      · exact h rfl
      · exact h rfl
    | glyph f' g' =>
      obtain ⟨x, h1, rfl⟩ := Option.map_eq_some_iff.1 hk
      obtain ⟨y, h2, h3⟩ := Option.map_eq_some_iff.1 he.symm
      cases h3

/-- C67: two requests that differ in kind, glyph, face, effective size, or in weight
and style (glyphs) or width and joins (strokes), never share a place, whatever is
asked in between. -/
theorem C67_apart (env : RasterEnv) (hs : env.Small) (a a' b b' : Atlas) (r r' : AtlasRequest) (ans ans' : GlyphAnswer) (p p' : Place)
    (hrun : AtlasRun env a) (h : a.get env r = some (a', ans)) (hst : AtlasSteps env a' b) (h' : b.get env r' = some (b', ans'))
    (hp : ans.place = some p) (hp' : ans'.place = some p') (hne : r.Distinct r') (hpage : p.page = p'.page) : p.Apart 1 p' := by
  obtain ⟨hist, owners, hok⟩ := hrun.ok hs
  obtain ⟨ext, own, k, info, r1, i, h1, -, h3, -, h5, h6, h7, rfl⟩ := get_ok hs hok h
  obtain ⟨ext', own', k1, k2⟩ := steps_keep hs h1 hst
  obtain ⟨ext2, own2, k', info', r2, i', q1, -, q3, -, q5, q6, q7, rfl⟩ := get_ok hs k1 h'
  have e1 := ((h6.append ext').append ext2).2.2.2.2.2 p hp
  have e2 := q6.2.2.2.2.2 p' hp'
  have o1 := getElem?_append_some (getElem?_append_some (h7 (by rw [show info.place = some p from hp]; simp)) own') own2
  have o2 := q7 (by rw [show info'.place = some p' from hp']; simp)
  have hkk : k ≠ k' := by
    rintro rfl
    exact hne.owner (h3.trans q3.symm) (by rw [h3]; simp)
  have hii : i ≠ i' := by
    rintro rfl
    rw [o1] at o2
    exact hkk (Option.some.inj o2)
  exact q1.packed.apart _ _ _ _ e1 e2 hii hpage

/-- C67 is violated by empty bitmaps: after any history, the second request for a
glyph without pixels, such as a space, is undefined (`&it->second.pPage->image`
with a null page). -/
theorem C67_empty_violated (env : RasterEnv) (hs : env.Small) (a a' : Atlas) (hrun : AtlasRun env a) (r : AtlasRequest) (ans : GlyphAnswer)
    (h : a.get env r = some (a', ans)) (he : ans.place = none) : a'.get env r = none := by
  obtain ⟨hist, owners, hok⟩ := hrun.ok hs
  obtain ⟨ext, own, k, info, r', i, h1, -, h3, -, h5, h6, -, rfl⟩ := get_ok hs hok h
  rw [get_cached h3 h5, cachedAnswer_spec h1.packed h6, if_pos he]
  rfl

/-- C67 is violated by strokes of synthetic bold or italic text: the key lacks weight
and style, so after the stroke of one font, the stroke of another one with the same
face and size gets the same place, and the answer is wrong if the bitmap's width is
different. -/
theorem C67_stroke_violated (env : RasterEnv) (hs : env.Small) (a a' : Atlas) (hrun : AtlasRun env a) (f f' : SingleScriptFont)
    (g t j : Nat) (ans : GlyphAnswer) (h : a.getStroke env f g t j = some (a', ans)) (hok : Answered env (.stroke f g t j) ans)
    (hp : ans.place ≠ none) (hface : f'.face.handle = f.face.handle) (hsize : f'.effectiveSize = f.effectiveSize)
    (hdiff : (env.stroke f' g t j).width ≠ (env.stroke f g t j).width) :
    ∃ ans', a'.getStroke env f' g t j = some (a', ans') ∧ ans'.place = ans.place ∧ ¬ Answered env (.stroke f' g t j) ans' := by
  obtain ⟨hist, owners, hok'⟩ := hrun.ok hs
  obtain ⟨ext, own, k, info, r', i, h1, -, h3, -, h5, h6, -, he⟩ := get_ok hs hok' (r := .stroke f g t j) h
  have ho : (AtlasRequest.stroke f' g t j).owner = some k := by
    rw [← h3]
    simp only [AtlasRequest.owner, strokeKey, hface, hsize]
  have hpl : info.place ≠ none := by rw [he] at hp; exact hp
  refine ⟨⟨info.place, info.width, info.height, info.offsetX, info.offsetY + env.baseline f', (env.raster r').hasColor⟩, ?_, by rw [he], ?_⟩
  · have := get_cached (env := env) ho h5
    rw [cachedAnswer_spec h1.packed h6, if_neg hpl] at this
    exact this
  · intro hc
    have h7 := hc.1
    have h8 := hok.1
    rw [he] at h8
    exact hdiff (h7.symm.trans h8)

/-- A font for the examples. -/
def atlasFont (style : FontStyle) : SingleScriptFont where
  face := ⟨3, 4, .normal⟩
  size := 16
  weight := 4
  style := style

/-- Rasters for the examples: glyph 0 is blank, glyph 2 coloured, the stroke of an
italic glyph is wider. -/
def atlasEnv : RasterEnv where
  glyph := fun _ g => if g = 0 then ⟨0, 0, 0, 0, false⟩ else ⟨8, 10, 1, -9, g = 2⟩
  stroke := fun f g _ _ => if g = 0 then ⟨0, 0, 0, 0, false⟩ else ⟨if f.style = .italic then 12 else 10, 12, 0, -10, false⟩
  baseline := fun _ => 0

theorem atlasEnv_small : atlasEnv.Small := by
  intro r
  cases r with
  | glyph f g =>
    simp only [RasterEnv.raster, atlasEnv]
    split <;> simp
  | stroke f g t j =>
    simp only [RasterEnv.raster, atlasEnv]
    split
    · simp
    · split <;> simp

/-- A history meeting the hypotheses of `C67_glyph`, `C67_stable` and `C67_apart`: two
glyphs, then the first again. -/
example : ((Atlas.get atlasEnv {} (.glyph (atlasFont .normal) 1)).bind fun x =>
    (x.1.get atlasEnv (.glyph (atlasFont .normal) 2)).bind fun y =>
    (y.1.get atlasEnv (.glyph (atlasFont .italic) 1)).bind fun z =>
    (z.1.get atlasEnv (.glyph (atlasFont .normal) 1)).map fun w => [x.2.place, y.2.place, z.2.place, w.2.place]) =
    some [some ⟨0, 0, 0, 8, 10⟩, some ⟨1, 0, 0, 8, 10⟩, some ⟨0, 9, 0, 8, 10⟩, some ⟨0, 0, 0, 8, 10⟩] := by decide +kernel

/-- A history meeting the hypotheses of `C67_empty_violated`. -/
example : ((Atlas.get atlasEnv {} (.glyph (atlasFont .normal) 0)).map fun x => (x.2.place, (x.1.get atlasEnv (.glyph (atlasFont .normal) 0)).isNone)) =
    some (none, true) := by decide +kernel

/-- A history meeting the hypotheses of `C67_stroke_violated`: the italic stroke,
12 pixels wide, gets the 10 pixels of the upright one. -/
example : ((Atlas.get atlasEnv {} (.stroke (atlasFont .normal) 1 2 0)).bind fun x =>
    (x.1.get atlasEnv (.stroke (atlasFont .italic) 1 2 0)).map fun y => ((x.2.place, x.2.width), (y.2.place, y.2.width))) =
    some ((some ⟨0, 0, 0, 10, 12⟩, 10), (some ⟨0, 0, 0, 10, 12⟩, 10)) := by decide +kernel

example : (atlasEnv.stroke (atlasFont .italic) 1 2 0).width = 12 := by decide +kernel

end RichText
