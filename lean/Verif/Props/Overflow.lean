import Verif.Proof.Overflow
/-!
# C104: the range of the integers of the layout builder

Widths and positions are sums of HarfBuzz's advances in `int32_t`, in 1/64 pixel.  Where no sum leaves the range, the
model with unbounded integers (C28-C43) describes the code; a line wider than 33554432 pixels is undefined behaviour.
-/
namespace RichText
variable {β φ : Type _}

/-- C104: whatever the builder computes without overflow is what the model with unbounded integers computes, for all texts,
fonts and parameters. -/
theorem C104_sound (L : Layout φ) (ps : List (Paragraph β φ)) (count : Nat) (y : YAlignment) (h : Rat) {r : Layout φ}
    (hr : buildLayoutC L ps count y h = some r) : buildLayout L ps count y h = some r := by
  unfold buildLayoutC at hr
  unfold buildLayout
  simp only [Option.bind_eq_some_iff] at hr ⊢
  obtain ⟨ops, h1, h2⟩ := hr
  exact ⟨ops, paragraphsOpsC_sound h1, h2⟩

/-- C104: what being defined means for the checked builder: what shaping stores and its differences, each tab stop with
its base, the width so far at every glyph of the three loops over a line, and at every glyph of a visual run, are in range. -/
theorem C104_checked :
    (∀ (e : ParaEnv β φ) (calls : List (Nat × β)) (b : Shaped φ), shapeParagraphC e calls = some b →
      (∀ w ∈ b.widths, InRange w) ∧ (∀ s ∈ b.secondary, InRange s) ∧ InRange b.cursor) ∧
    (∀ (v : Bool) (l : List HbGlyph) (ws : List Int), glyphWidthsC v l = some ws → ∀ (i : Nat) (g : HbGlyph),
      l[i]? = some g → InRange (g.advPrimary v - g.offPrimary v) ∧
        ∀ k, l[i + 1]? = some k → InRange (g.advPrimary v - g.offPrimary v + k.offPrimary v)) ∧
    (∀ (e : LineEnv) (w s v : Int), tabStopC e w s = some v →
      InRange v ∧ (e.tabPixels = false → InRange (w * e.tabWidth / 64))) ∧
    (∀ (e : LineEnv) (ci : List Nat) (ws ws' : List Int), applyTabsC e ci 0 0 ws = some ws' →
      ∀ k, 0 < k → k ≤ ci.length → InRange (sumRange ws' 0 k)) ∧
    (∀ (e : LineEnv) (ci : List Nat) (i : Nat) (ws : List Int) (f : Fit), i ≤ ci.length → fitLineC e ci i 0 ws = some f →
      ∀ k, i < k → k ≤ f.glyph + 1 → k ≤ ci.length → InRange (sumRange f.widths i k)) ∧
    (∀ (e : LineEnv) (ci : List Nat) (n i : Nat) (s : Int) (ws ws' : List Int), adjustTabsC e ci n i s ws = some ws' →
      ∀ k, i < k → k ≤ i + n → InRange (s + sumRange ws' i k)) ∧
    (∀ (b : Shaped φ) (ws : List Int) (v : Bool) (idx : List Nat) (w : Int) (r : List GlyphSpec × Int),
      emitGlyphsC b ws v idx w = some r → ∀ k, 0 < k → k ≤ idx.length → InRange (w + sumAt ws (idx.take k))) := by
  refine ⟨?_, fun _ _ _ h => (glyphWidthsC_checked h).2, fun _ _ _ _ h => ⟨(tabStopC_checked h).1, (tabStopC_checked h).2.1⟩,
    ?_, ?_, fun _ _ _ _ _ _ _ h => adjustTabsC_checked _ _ _ _ h, fun _ _ _ _ _ _ h => emitGlyphsC_checked h⟩
  · intro e calls b h
    unfold shapeParagraphC at h
    simp only [Option.map_eq_some_iff] at h
    obtain ⟨x, hx, rfl⟩ := h
    obtain ⟨h1, h2, h3⟩ := shapeCallsC_checked
      ⟨by simp, by simp, by constructor <;> simp⟩ hx
    refine ⟨h1, ?_, h3⟩
    intro s hs
    rcases List.mem_append.1 hs with hs | hs
    · exact h2 s hs
    · rw [List.mem_singleton] at hs
      rw [hs]; exact h3
  · intro e ci ws ws' h k h1 h2
    have := applyTabsC_checked _ 0 0 ws rfl (Nat.zero_le _) h k h1 h2
    rwa [Int.zero_add] at this
  · intro e ci i ws f hi h k h1 h2 h3
    have := fitLineC_checked _ i 0 ws rfl hi h k h1 h2 h3
    rwa [Int.zero_add] at this

/-- C104, the part that holds: there is no overflow if in each paragraph the advances and offsets are at most `m`, tabs at
most `W` wide, and the glyphs, `3 m` each and tabs `W` more, are together at most 2^31 - 1 wide. -/
theorem C104_in_range_partial (L : Layout φ) (ps : List (Paragraph β φ)) (count : Nat) (y : YAlignment) (h : Rat)
    (hps : Paragraphs count 0 ps)
    (hb : ∀ p ∈ ps, 0 < p.length - p.separator → ∃ m W, 0 ≤ m ∧ p.env.Within m ∧ p.env.line.TabsBelow (3 * m) W ∧
      p.env.Fits p.calls m W) : buildLayoutC L ps count y h = buildLayout L ps count y h := by
  unfold buildLayoutC buildLayout
  rw [paragraphsOpsC_eq hps hb]

/-- C104: a line wider than the greatest number overflows: in every paragraph that the unbounded model lays out. -/
theorem C104_line_violated {e : ParaEnv β φ} {calls : List (Nat × β)} (hok : e.OK calls) {b : Shaped φ}
    {ls : List BrokenLine} {l : BrokenLine} (hb : shapeParagraph e calls = some b)
    (hls : paragraphLines e.line b.charIdx b.widths = some ls) (hl : l ∈ ls) (hw : 2147483647 < l.extent b.charIdx)
    (n : Nat) : buildParagraphC e calls n = none ∧ ∃ r, buildParagraph e calls n = some r := by
  obtain ⟨b', qs, ls', ops, ps, idx, h1, h2, _, _, _, h6, h7, h8, _, _⟩ := paragraph_spec hok
  rw [hb] at h1; cases h1
  rw [hls] at h6; cases h6
  constructor
  · cases hx : buildParagraphC e calls n with
    | none => rfl
    | some r =>
      unfold buildParagraphC at hx
      simp only [Option.bind_eq_some_iff, Option.map_eq_some_iff] at hx
      obtain ⟨b', g1, ls', g2, x, g3, _⟩ := hx
      have g1 := shapeParagraphC_sound g1
      rw [hb] at g1; cases g1
      have g2 := paragraphLinesC_sound g2
      rw [hls] at g2; cases g2
      obtain ⟨y, hy⟩ := linesOpsC_range g3 l hl
      have hin : e.line.Inside b.charIdx := by
        intro c hc
        obtain ⟨i, hi⟩ := List.mem_iff_getElem?.1 hc
        exact h2.char_inside hi
      obtain ⟨a1, a2, a3⟩ := h7.mem _ (List.mem_map_of_mem (f := fun l : BrokenLine => (l.first, l.stop)) hl)
      have := lineOpsC_range h2 (by rw [paragraphLines_widths hok.breaks hin hls l hl, h2.widths]) a1 a3
        (hok.bidi _ _ a1 a2 a3) hy
      omega
  · unfold buildParagraph
    rw [hb, Option.bind_some, hls, Option.bind_some, h8]
    exact ⟨_, rfl⟩

/-! ### Texts of equally wide glyphs -/

/-- A paragraph of `n` characters of one glyph each of width `w` (tabs with the tab stops of the text box, every eight
blanks), breaks allowed everywhere. -/
def evenEnv (n : Nat) (w area : Int) (tab hangs : Nat → Bool) : ParaEnv Unit Unit where
  subFont _ _ limit := ((), limit)
  shape _ _ a b := (List.range (b - a)).map fun i => ⟨1, i, w, 0, 0, 0⟩
  reversed _ := false
  same _ _ := true
  isTab c := tab c && decide (c < n)
  spaceAdvance _ := w
  spaceGlyph _ := 2
  vertical := false
  line :=
    { start := 0, length := n, area := area, tabWidth := 512, tabPixels := false
      isTab := fun c => tab c && decide (c < n)
      next := (· + 1), hangs := hangs, preceding := fun i => ((min (i - 1) n : Nat) : Int) }
  bidi s t := [⟨s, t - s, 0⟩]
  metrics _ := ⟨10, -2⟩

theorem evenEnv_ok {n : Nat} (hn : 0 < n) {w : Int} (hw : 0 < w) (area : Int) (tab hangs : Nat → Bool) :
    (evenEnv n w area tab hangs).OK [(n, ())] := by
  refine ⟨hn, ⟨fun v off limit h => ⟨h, Nat.le_refl _⟩, ?_, ?_⟩, ⟨by simp, by simp [evenEnv]⟩, ?_, ?_, .inr (.inr ⟨rfl, show (64 : Int) ≤ 512 by decide, ?_⟩), ?_⟩
  · intro f v a b h g hg
    obtain ⟨i, hi, rfl⟩ := List.mem_map.1 hg
    exact List.mem_range.1 hi
  · intro f v a b h
    show List.Pairwise _ ((List.range (b - a)).map _)
    rw [List.pairwise_map]
    exact List.pairwise_lt_range.imp fun h => Nat.le_of_lt h
  · intro i
    show ((min (i - 1) n : Nat) : Int) ≤ (n : Int)
    omega
  · intro i hi
    exact ⟨Nat.lt_succ_self i, hi⟩
  · intro f v a b h i g hg _
    have hz : ∀ (j : Nat) (k : HbGlyph), ((evenEnv n w area tab hangs).shape f v a b)[j]? = some k → k.xOffset = 0 ∧ k.xAdvance = w := by
      intro j k hk
      obtain ⟨x, _, rfl⟩ := List.mem_map.1 (List.mem_of_getElem? hk)
      exact ⟨rfl, rfl⟩
    obtain ⟨g1, g2⟩ := hz i g hg
    have g3 : (((evenEnv n w area tab hangs).shape f v a b)[i + 1]?.map (·.xOffset)).getD 0 = 0 := by
      cases hh : ((evenEnv n w area tab hangs).shape f v a b)[i + 1]? with
      | none => rfl
      | some k => exact (hz _ k hh).1
    have g4 : (evenEnv n w area tab hangs).width f a g ((evenEnv n w area tab hangs).shape f v a b)[i + 1]? =
        (evenEnv n w area tab hangs).advance f a g - g.xOffset +
          (((evenEnv n w area tab hangs).shape f v a b)[i + 1]?.map (·.xOffset)).getD 0 := rfl
    have g5 : (evenEnv n w area tab hangs).advance f a g = w := by
      unfold ParaEnv.advance
      split
      · rfl
      · exact g2
    rw [g4, g1, g3, g5]
    omega
  · intro s t _ h2 _
    exact ⟨_, List.Perm.refl _, rfl, by simp only; omega, by simp only [List.map_nil, Consecutive]; omega⟩

theorem evenEnv_within (n : Nat) {w : Int} (hw : 0 ≤ w) (area : Int) (tab hangs : Nat → Bool) :
    (evenEnv n w area tab hangs).Within w := by
  refine ⟨?_, fun f => ⟨by simp only [evenEnv]; omega, Int.le_refl _⟩⟩
  intro f v a b _ g hg
  obtain ⟨i, _, rfl⟩ := List.mem_map.1 hg
  exact ⟨⟨by simp only; omega, Int.le_refl _⟩, ⟨by simp only; omega, hw⟩, ⟨by simp only; omega, hw⟩, by simp only; omega, hw⟩

theorem glyphWidths_wide {w : Int} {l : List HbGlyph} (h : ∀ g ∈ l, g.xAdvance = w ∧ g.xOffset = 0) :
    glyphWidths false l = List.replicate l.length w := by
  induction l with
  | nil => rfl
  | cons g t ih =>
    obtain ⟨h1, h2⟩ := h g (List.mem_cons_self ..)
    have ih := ih fun g hg => h g (List.mem_cons_of_mem _ hg)
    cases t with
    | nil => simp [glyphWidths, HbGlyph.advPrimary, HbGlyph.offPrimary, h1, h2]
    | cons k t =>
      obtain ⟨h3, h4⟩ := h k (List.mem_cons_of_mem _ (List.mem_cons_self ..))
      rw [glyphWidths, ih]
      simp [HbGlyph.advPrimary, HbGlyph.offPrimary, h1, h2, h4, List.replicate_succ]

theorem evenEnv_shaped {n : Nat} (hn : 0 < n) (w area : Int) (tab hangs : Nat → Bool) :
    ∃ b, shapeParagraph (evenEnv n w area tab hangs) [(n, ())] = some b ∧ b.glyphs.length = n ∧
      b.charIdx = List.range n ∧ b.widths = List.replicate n w := by
  have hx : shapeCalls (evenEnv n w area tab hangs).toShapeEnv [(n, ())] 0 {} =
      some (n, Shaped.addSubRun {} (evenEnv n w area tab hangs).toShapeEnv () 0 ((), n)) := by
    unfold shapeCalls subFontLoop
    have : (evenEnv n w area tab hangs).subFont () 0 n = ((), n) := rfl
    rw [if_pos hn, this]
    simp only
    rw [if_pos hn]
    unfold subFontLoop
    rw [if_neg (Nat.lt_irrefl _)]
    rfl
  refine ⟨_, by unfold shapeParagraph; rw [show (evenEnv n w area tab hangs).line.start = 0 from rfl, hx]; rfl, ?_, ?_, ?_⟩
  · show (Shaped.addSubRun {} (evenEnv n w area tab hangs).toShapeEnv () 0 ((), n)).glyphs.length = n
    rw [addSubRun_length]
    simp [evenEnv]
  · show (Shaped.addSubRun {} (evenEnv n w area tab hangs).toShapeEnv () 0 ((), n)).charIdx = _
    unfold Shaped.addSubRun
    rw [(addRun_glyphs ..).2.2.2]
    apply List.ext_getElem?
    intro i
    simp only [Shaped.addShaped, evenEnv, revIf, Bool.false_eq_true, if_false, List.nil_append, List.map_map,
      List.getElem?_map, Nat.sub_zero]
    by_cases hi : i < n
    · rw [List.getElem?_range hi]
      simp only [Option.map_some, Function.comp_apply, replaceTab]
      split <;> rfl
    · rw [List.getElem?_eq_none (by simpa using hi)]
      rfl
  · show (Shaped.addSubRun {} (evenEnv n w area tab hangs).toShapeEnv () 0 ((), n)).widths = _
    rw [(addSubRun_data ..).2]
    rw [show (evenEnv n w area tab hangs).reversed () = false from rfl]
    rw [show (evenEnv n w area tab hangs).vertical = false from rfl]
    rw [glyphWidths_wide (w := w)]
    · simp [revIf, evenEnv]
    · intro g hg
      obtain ⟨k, hk, rfl⟩ := List.mem_map.1 hg
      obtain ⟨j, _, rfl⟩ := List.mem_map.1 hk
      unfold replaceTab
      split <;> exact ⟨rfl, rfl⟩

/-- C104: `n` glyphs of width `w` without line breaks, or `n` blanks (which hang over the end of the line) in a text area
of any width, overflow if `n w` is above the greatest number. -/
theorem C104_wide_violated {n : Nat} {w : Int} (hw : 0 < w) (area : Int) (hangs : Nat → Bool)
    (h : area = 0 ∨ ∀ i, hangs i = true) (hbig : 2147483647 < (n : Int) * w) (k : Nat) :
    (evenEnv n w area (fun _ => false) hangs).OK [(n, ())] ∧
      buildParagraphC (evenEnv n w area (fun _ => false) hangs) [(n, ())] k = none ∧
      ∃ r, buildParagraph (evenEnv n w area (fun _ => false) hangs) [(n, ())] k = some r := by
  have hn : 0 < n := by
    rcases Nat.eq_zero_or_pos n with rfl | h
    · simp at hbig
    · exact h
  have hok := evenEnv_ok hn hw area (fun _ => false) hangs
  refine ⟨hok, ?_⟩
  obtain ⟨b, h1, h2, h3, h4⟩ := evenEnv_shaped hn w area (fun _ => false) hangs
  have hnt : ∀ c ∈ b.charIdx, (evenEnv n w area (fun _ => false) hangs).line.isTab c = false := fun c _ => rfl
  have hin : (evenEnv n w area (fun _ => false) hangs).line.Inside b.charIdx := by
    intro c hc
    rw [h3, List.mem_range] at hc
    exact ⟨Nat.zero_le _, by simpa [evenEnv] using hc⟩
  have hlines : ∃ ls, paragraphLines (evenEnv n w area (fun _ => false) hangs).line b.charIdx b.widths = some ls ∧
      ⟨0, n, b.widths⟩ ∈ ls := by
    obtain ⟨ls, hls⟩ := paragraphLines_defined hok.breaks hok.decodes hin (ws := b.widths) (by rw [h3, h4]; simp) (Or.inl hnt)
    refine ⟨ls, hls, ?_⟩
    unfold paragraphLines at hls
    by_cases ha : area = 0
    · rw [if_pos (show (evenEnv n w area (fun _ => false) hangs).line.area = 0 from ha)] at hls
      simp only [Option.map_eq_some_iff] at hls
      obtain ⟨ws, hws, rfl⟩ := hls
      rw [(applyTabs_spec _ 0 0 _ rfl (Nat.zero_le _) hws).noTabs hnt]
      simp [evenEnv]
    · rw [if_neg (show ¬ (evenEnv n w area (fun _ => false) hangs).line.area = 0 from ha)] at hls
      have hang := h.resolve_left ha
      unfold breakLines at hls
      rw [if_pos (show (evenEnv n w area (fun _ => false) hangs).line.start <
        (evenEnv n w area (fun _ => false) hangs).line.start + (evenEnv n w area (fun _ => false) hangs).line.length by
          simp only [evenEnv]; omega)] at hls
      rw [show (evenEnv n w area (fun _ => false) hangs).line.length = (n - 1) + 1 by simp only [evenEnv]; omega] at hls
      simp only at hls
      cases hl : breakLine (evenEnv n w area (fun _ => false) hangs).line b.charIdx
          (evenEnv n w area (fun _ => false) hangs).line.start b.widths with
      | none => simp [hl] at hls
      | some l =>
        simp only [hl, Option.map_eq_some_iff] at hls
        obtain ⟨rest, _, rfl⟩ := hls
        have hws := breakLine_noTabs hnt hl
        obtain ⟨it⟩ := breakLine_iteration hl
        have hp : it.p = (n : Int) := by
          obtain ⟨p, p1, p2⟩ := findPreviousLineBreak_spec (e := (evenEnv n w area (fun _ => false) hangs).line)
            (isStart := fun _ => True) ⟨fun i _ hi => ⟨Nat.lt_succ_self i, hi, fun _ => trivial⟩, fun i j _ _ _ hij => hij⟩ _
            (breakFrom (evenEnv n w area (fun _ => false) hangs).line b.charIdx (forceGlyph b.charIdx.length it.f) -
              (evenEnv n w area (fun _ => false) hangs).line.start) rfl (Or.inl trivial)
          have hprev := it.prev
          rw [p1] at hprev
          simp only [Option.some.injEq] at hprev
          rw [← hprev]
          rcases p2 with ⟨j, _, _, _, q4, _⟩ | ⟨j, q1, q2, _⟩
          · rw [show (evenEnv n w area (fun _ => false) hangs).line.hangs j = hangs j from rfl, hang j] at q4
            cases q4
          · rw [q2]
            have q1 : n < j := q1
            show ((min (j - 1) n : Nat) : Int) = n
            omega
        have hstop : l.stop = n := by
          rw [it.stop]
          have hf := (forceBreak_spec b.charIdx (((evenEnv n w area (fun _ => false) hangs).line.start : Nat) : Int) _
            (it.p + ((evenEnv n w area (fun _ => false) hangs).line.start : Nat)) (forceGlyph b.charIdx.length it.f) rfl
            (by
              obtain ⟨g, hg, hgl⟩ := search_bounds b.charIdx (evenEnv n w area (fun _ => false) hangs).line.start
              rw [it.search] at hg; cases hg
              exact (forceGlyph_bounds (fitLine_spec _ _ _ _ rfl hgl it.fit).hi).2)).2.2.1
            (by rw [hp]; simp only [evenEnv]; omega)
          rw [hf, hp]
          have h0 : (evenEnv n w area (fun _ => false) hangs).line.start = 0 := rfl
          unfold lastBreak
          generalize forceGlyph b.charIdx.length it.f = x
          rw [h0]
          simp only
          rw [if_neg (by omega)]
          omega
        have hfirst : l.first = 0 := it.first
        have : l = ⟨0, n, b.widths⟩ := by
          cases l
          simp only at hws hstop hfirst
          rw [hws, hstop, hfirst]
        rw [this]
        exact List.mem_cons_self ..
  obtain ⟨ls, hls, hl⟩ := hlines
  refine C104_line_violated hok h1 hls hl ?_ k
  unfold BrokenLine.extent
  rw [h3, h4, List.filter_eq_self.2]
  · have hs : ∀ m, m ≤ n → sumAt (List.replicate n w) (List.range m) = (m : Int) * w := by
      intro m
      induction m with
      | zero => simp [sumAt]
      | succ m ih =>
        intro hm
        rw [List.range_succ, sumAt_append, ih (by omega)]
        have : (List.replicate n w).getD m 0 = w := by
          rw [List.getD_eq_getElem?_getD, List.getElem?_replicate, if_pos (by omega)]; rfl
        rw [sumAt_cons, this]
        simp only [sumAt, List.map_nil, List.sum_nil]
        push_cast
        ring
    rw [List.length_range, hs n (Nat.le_refl _)]
    exact hbig
  · intro i hi
    rw [List.length_range, List.mem_range] at hi
    simp [List.getD_eq_getElem?_getD, hi]

/-- 3355444 characters, ten pixels wide each, without line breaks. -/
example (k : Nat) : buildParagraphC (evenEnv 3355444 640 0 (fun _ => false) fun _ => false) [(3355444, ())] k = none :=
  (C104_wide_violated (by decide) 0 _ (.inl rfl) (by decide) k).2.1

/-- 3355444 blanks in a text area of 800 pixels. -/
example (k : Nat) : buildParagraphC (evenEnv 3355444 640 51200 (fun _ => false) fun _ => true) [(3355444, ())] k = none :=
  (C104_wide_violated (by decide) 51200 _ (.inr fun _ => rfl) (by decide) k).2.1

/-- A million characters, ten pixels wide each, are in range: with any text area. -/
example (area : Int) (hangs : Nat → Bool) (k : Nat) :
    buildParagraphC (evenEnv 1000000 640 area (fun _ => false) hangs) [(1000000, ())] k =
      buildParagraph (evenEnv 1000000 640 area (fun _ => false) hangs) [(1000000, ())] k := by
  refine buildParagraphC_eq (m := 640) (W := 0) (evenEnv_ok (by decide) (by decide) ..) (by decide) (evenEnv_within _ (by decide) ..)
    ⟨by decide, by decide, .inl fun _ => rfl⟩ ?_ k
  intro b hb
  obtain ⟨b', h1, h2, h3, _⟩ := evenEnv_shaped (n := 1000000) (by decide) 640 area (fun _ => false) hangs
  rw [hb] at h1; cases h1
  rw [h2]
  omega

/-- Two hundred characters, tabs among them wherever, in any text area. -/
example (area : Int) (tab : Nat → Bool) (k : Nat) :
    buildParagraphC (evenEnv 200 640 area tab tab) [(200, ())] k =
      buildParagraph (evenEnv 200 640 area tab tab) [(200, ())] k := by
  refine buildParagraphC_eq (m := 640) (W := 7864320) (evenEnv_ok (by decide) (by decide) ..) (by decide)
    (evenEnv_within _ (by decide) ..)
    ⟨by decide, by decide, .inr (.inr ⟨rfl, 8, by decide, ⟨show -(64 * 8) ≤ (512 : Int) by decide, show (512 : Int) ≤ 64 * 8 by decide⟩, .inr ⟨?_, by decide⟩⟩)⟩ ?_ k
  · intro c _ ht
    have ht : (tab c && decide (c < 200)) = true := ht
    rw [Bool.and_eq_true, decide_eq_true_eq] at ht
    refine ⟨ht.1, ?_⟩
    intro j hj
    have hj : c - 0 + 1 < j := hj
    show ((c - 0 + 1 : Nat) : Int) ≤ ((min (j - 1) 200 : Nat) : Int)
    omega
  · intro b hb
    obtain ⟨b', h1, h2, h3, _⟩ := evenEnv_shaped (n := 200) (by decide) 640 area tab tab
    rw [hb] at h1; cases h1
    have := List.countP_le_length (p := (evenEnv 200 640 area tab tab).line.isTab) (l := b.charIdx)
    rw [h3, List.length_range] at this
    rw [h2, h3]
    omega

/-- The checked builder is defined: "a", tab, "b". -/
example : (buildParagraphC (evenEnv 3 64 0 (· == 1) fun _ => false) [(3, ())] 0).map (·.1) =
    some [.run () [⟨1, 0, 0, 0⟩, ⟨2, 1, 1, 0⟩, ⟨1, 2, 8, 0⟩] 9 0 0 3 false, .line 12 10] := by decide +kernel

end RichText
