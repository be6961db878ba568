import Verif.Proof.RoundedQueries
import Verif.Props.RoundedLayout
/-!
C94: lines, offsets, selection ranges and the caret in `float`.
-/
namespace RichText
variable {φ : Type _} {β : Type _}

/-- C94.  The layouts that C94 is about are those of the builder: if font metrics
and the height of the area are multiples of 1/64 pixel and the text is smaller
than 32768 pixels, the builder's result in `float` is that of exact arithmetic
and as assumed below. -/
theorem C94_built {L0 L : Layout φ} {ps : List (Paragraph β φ)} {count : Nat} {ya : YAlignment} {H : Rat}
    (h : buildLayout L0 ps count ya H = some L) (hm : FineMetrics ps) (hH : Fine H) (hHb : |H| ≤ 131072)
    (hp : ∀ x ∈ L.pos, |x| ≤ 32768) (hl : ∀ l ∈ L.lines, |l.totalDescent| ≤ 32768 ∧ |l.ascent| ≤ 32768)
    (hy : |L.startY| ≤ 32768) :
    buildLayoutR f32Round L0 ps count ya H = some L ∧ CrispLayout L := by
  refine ⟨C93_build_exact h hm hH hHb (fun x hx => (hp x hx).trans (by norm_num))
    (fun l hl' => (hl l hl').1.trans (by norm_num)), ?_⟩
  obtain ⟨ops, L1, h1, h2, rfl⟩ := buildLayout_parts h
  have hops := paragraphsOps_fine h1
  have hf := execLayout_fine (fun op hop => ⟨(hops op hop).1, (hops op hop).2 hm⟩)
    (by simp [Layout.clear, Layout.Fine64]) h2
  refine ⟨fun x hx => ⟨hf.1 x hx, hp x hx⟩, fun l hl' => ?_, ?_, hy⟩
  · obtain ⟨a1, a2, a3⟩ := hf.2 l hl'
    exact ⟨⟨hf.1 _ a1, hp _ a1⟩, ⟨a2, (hl l hl').2⟩, ⟨a3, (hl l hl').1⟩⟩
  · have ht : Fine L1.textHeight := by
      unfold Layout.textHeight
      cases hg : L1.lines.getLast? with
      | none => exact .zero
      | some l => exact (hf.2 l (List.mem_of_getLast? hg)).2.2
    obtain ⟨n, hn⟩ := hH.sub ht
    refine ⟨ya.toNat * n, ?_⟩
    show (ya.toNat : Rat) * (H - L1.textHeight) * (1 / 2) * 128 = _
    push_cast
    rw [← hn]
    ring

/-! ### Lines -/

/-- C94.  `for_each_line` in `float` makes the calls of exact arithmetic. -/
theorem C94_lines {L : Layout φ} (h : CrispLayout L) {W : Rat} (hW : Crisp W) (a : XAlignment) :
    L.forEachLineR f32Round W a = L.forEachLine W a := by
  have := forEachLineFromR_eq h hW a _ 0 rfl
  unfold Layout.forEachLineR Layout.forEachLine
  simpa [Layout.topOf] using this

/-! ### Offsets -/

/-- C94.  Offset and exact offset, in both directions: within 5/512 pixels; equal
at the places between clusters. -/
theorem C94_offset_near {L : Layout φ} (hc : CrispLayout L) {k : Nat} {r : RunSpec φ} (h : RunAt L k r)
    (hr : LtrRun r ∨ RtlRun r) (c : Nat) (h1 : r.charStart ≤ c) (h2 : c ≤ r.charEnd) :
    ∃ v w, L.glyphOffsetR f32Round k c = some v ∧ L.glyphOffset k c = some w ∧
      (r.charEnd ≤ 16777216 → |v - w| ≤ 5 / 512) ∧ (r.Edge c → v = w ∧ Crisp v) ∧ |v| ≤ 32768 ∧
      r.xAt 0 ≤ v ∧ v ≤ r.endX := by
  have hx0 := xAt_crisp hc.pos h (Nat.zero_le _)
  have hxn := xAt_crisp hc.pos h (Nat.le_refl _)
  rw [xAt_end] at hxn
  have habs : ∀ {v : Rat}, r.xAt 0 ≤ v → v ≤ r.endX → |v| ≤ 32768 := fun {v} a b => by
    have e1 := hx0.2
    have e2 := hxn.2
    rw [abs_le] at *
    constructor <;> linarith
  rcases hr with hr | hr
  · obtain ⟨v, e1, e2⟩ := ltr_offsetR hc.pos h hr h1 h2
    obtain ⟨w, f1, f2⟩ := ltr_offset h hr h1 h2
    have hcx : ∀ i, i ≤ r.glyphs.length → Crisp (r.xAt i) := fun i hi => xAt_crisp hc.pos h hi
    have hb := e2.bounds hcx (fun i hi => xAt_step hr.mono hi)
    rw [xAt_end] at hb
    refine ⟨v, w, e1, f1, fun hs => e2.near hcx (fun i _ => (charAt_le_end hr.below i).trans hs) f2,
      fun he => e2.edge hcx f2 (edge_ltr he) (fun i j hij _ => charAt_le hr hij), habs hb.1 hb.2, hb.1, hb.2⟩
  · obtain ⟨v, e1, e2⟩ := rtl_offsetR hc.pos h hr h1 h2
    obtain ⟨w, f1, f2⟩ := rtl_offset h hr h1 h2
    have hcx : ∀ i, i ≤ r.glyphs.length → Crisp (r.xBack i) := fun i _ => xAt_crisp hc.pos h (by omega)
    have hb := e2.bounds_down hcx (xBack_step hr)
    unfold RunSpec.xBack at hb
    rw [Nat.sub_self, Nat.sub_zero, xAt_end] at hb
    refine ⟨v, w, e1, f1, fun hs => e2.near hcx (fun i _ => (charBack_le_end hr.below i).trans hs) f2,
      fun he => e2.edge hcx f2 (edge_rtl he) (fun i j hij _ => charBack_le hr hij), habs hb.1 hb.2, hb.1, hb.2⟩

/-- C94, left to right: rounding never moves a later cursor to the left of an
earlier one or outside of the run. -/
theorem C94_ltr_monotone {L : Layout φ} (hc : CrispLayout L) {k : Nat} {r : RunSpec φ} (h : RunAt L k r) (hr : LtrRun r)
    (c d : Nat) (h1 : r.charStart ≤ c) (h2 : c ≤ d) (h3 : d ≤ r.charEnd) :
    ∃ v w, L.glyphOffsetR f32Round k c = some v ∧ L.glyphOffsetR f32Round k d = some w ∧ v ≤ w ∧ w ≤ r.endX ∧
      ∀ x, r.xs[0]? = some x → x ≤ v := by
  obtain ⟨v, e1, e2⟩ := ltr_offsetR hc.pos h hr h1 (by omega)
  obtain ⟨w, f1, f2⟩ := ltr_offsetR hc.pos h hr (show r.charStart ≤ d by omega) h3
  have hcx : ∀ i, i ≤ r.glyphs.length → Crisp (r.xAt i) := fun i hi => xAt_crisp hc.pos h hi
  have hx : ∀ i, i < r.glyphs.length → r.xAt i ≤ r.xAt (i + 1) := fun i hi => xAt_step hr.mono hi
  refine ⟨v, w, e1, f1, e2.mono hcx hx f2 h2, ?_, ?_⟩
  · have := (f2.bounds hcx hx).2
    rwa [xAt_end] at this
  · intro x hx0
    rw [xs_get r (Nat.zero_le _)] at hx0
    cases hx0
    exact (e2.bounds hcx hx).1

/-- C94, right to left: rounding never moves a later cursor to the right of an
earlier one or outside of the run. -/
theorem C94_rtl_antitone {L : Layout φ} (hc : CrispLayout L) {k : Nat} {r : RunSpec φ} (h : RunAt L k r) (hr : RtlRun r)
    (c d : Nat) (h1 : r.charStart ≤ c) (h2 : c ≤ d) (h3 : d ≤ r.charEnd) :
    ∃ v w, L.glyphOffsetR f32Round k c = some v ∧ L.glyphOffsetR f32Round k d = some w ∧ w ≤ v ∧ v ≤ r.endX ∧
      ∀ x, r.xs[0]? = some x → x ≤ w := by
  obtain ⟨v, e1, e2⟩ := rtl_offsetR hc.pos h hr h1 (by omega)
  obtain ⟨w, f1, f2⟩ := rtl_offsetR hc.pos h hr (show r.charStart ≤ d by omega) h3
  have hcx : ∀ i, i ≤ r.glyphs.length → Crisp (r.xBack i) := fun i _ => xAt_crisp hc.pos h (by omega)
  have b1 := (e2.bounds_down hcx (xBack_step hr)).2
  have b2 := (f2.bounds_down hcx (xBack_step hr)).1
  unfold RunSpec.xBack at b1 b2
  rw [Nat.sub_zero, xAt_end] at b1
  rw [Nat.sub_self] at b2
  refine ⟨v, w, e1, f1, e2.anti hcx (xBack_step hr) f2 h2, b1, ?_⟩
  intro x hx0
  rw [xs_get r (Nat.zero_le _)] at hx0
  cases hx0
  exact b2

/-! ### Selections -/

theorem positionRangeR_eq {L : Layout φ} {k : Nat} {r : RunSpec φ} (h : RunAt L k r) (a b : Nat) :
    L.positionRangeR f32Round k a b =
      match L.glyphOffsetR f32Round k (max (min a r.charEnd) r.charStart),
        L.glyphOffsetR f32Round k (max (min b r.charEnd) r.charStart) with
      | some v, some w => if r.rtl then some (w, v) else some (v, w)
      | _, _ => none := by
  obtain ⟨ls, rs, y, hs, hk⟩ := h.stored
  unfold Layout.positionRangeR
  rw [hs.runs k r hk]
  simp only
  cases L.glyphOffsetR f32Round k (max (min a r.charEnd) r.charStart) <;>
    cases L.glyphOffsetR f32Round k (max (min b r.charEnd) r.charStart) <;> rfl

/-- C94.  The bounds of a selection are ordered, inside of the run, and within
5/512 pixels of those of exact arithmetic. -/
theorem C94_range {L : Layout φ} (hc : CrispLayout L) {k : Nat} {r : RunSpec φ} (h : RunAt L k r)
    (hr : LtrRun r ∨ RtlRun r) (a b : Nat) (hab : a ≤ b) :
    ∃ v w v' w', L.positionRange k a b = some (v, w) ∧ L.positionRangeR f32Round k a b = some (v', w') ∧ v' ≤ w' ∧
      w' ≤ r.endX ∧ (∀ x, r.xs[0]? = some x → x ≤ v') ∧
      (r.charEnd ≤ 16777216 → |v' - v| ≤ 5 / 512 ∧ |w' - w| ≤ 5 / 512) := by
  have hse : r.charStart ≤ r.charEnd := by rcases hr with hr | hr <;> exact hr.start_end
  have c1 := clamp_bounds (c := a) hse
  have c2 := clamp_bounds (c := b) hse
  have c3 : max (min a r.charEnd) r.charStart ≤ max (min b r.charEnd) r.charStart := by omega
  obtain ⟨v, v0, a1, a2, a3, -⟩ := C94_offset_near hc h hr _ c1.1 c1.2
  obtain ⟨w, w0, b1, b2, b3, -⟩ := C94_offset_near hc h hr _ c2.1 c2.2
  rcases hr with hr | hr
  · obtain ⟨p, q, e1, e2, e3, e4, e5⟩ := C94_ltr_monotone hc h hr _ _ c1.1 c3 c2.2
    rw [a1] at e1; rw [b1] at e2
    cases e1; cases e2
    refine ⟨v0, w0, v, w, ?_, ?_, e3, e4, e5, fun hs => ⟨a3 hs, b3 hs⟩⟩
    · rw [positionRange_ltr h hr.ltr, a2, b2]
    · rw [positionRangeR_eq h, a1, b1]
      simp [hr.ltr]
  · obtain ⟨p, q, e1, e2, e3, e4, e5⟩ := C94_rtl_antitone hc h hr _ _ c1.1 c3 c2.2
    rw [a1] at e1; rw [b1] at e2
    cases e1; cases e2
    refine ⟨w0, v0, w, v, ?_, ?_, e3, e4, e5, fun hs => ⟨b3 hs, a3 hs⟩⟩
    · rw [positionRange_rtl h hr.rtl, a2, b2]
    · rw [positionRangeR_eq h, a1, b1]
      simp [hr.rtl]

/-- C94.  Adjacent selections still share an edge: no gap and no overlap. -/
theorem C94_abut {L : Layout φ} (hc : CrispLayout L) {k : Nat} {r : RunSpec φ} (h : RunAt L k r)
    (hr : LtrRun r ∨ RtlRun r) (a b c : Nat) :
    ∃ u v w, (r.rtl = false ∧ L.positionRangeR f32Round k a b = some (u, v) ∧
        L.positionRangeR f32Round k b c = some (v, w) ∧ L.positionRangeR f32Round k a c = some (u, w)) ∨
      (r.rtl = true ∧ L.positionRangeR f32Round k b c = some (u, v) ∧
        L.positionRangeR f32Round k a b = some (v, w) ∧ L.positionRangeR f32Round k a c = some (u, w)) := by
  have hse : r.charStart ≤ r.charEnd := by rcases hr with hr | hr <;> exact hr.start_end
  have hx := clamp_bounds (c := a) hse
  have hy := clamp_bounds (c := b) hse
  have hz := clamp_bounds (c := c) hse
  obtain ⟨u, -, e1, -⟩ := C94_offset_near hc h hr _ hx.1 hx.2
  obtain ⟨v, -, e2, -⟩ := C94_offset_near hc h hr _ hy.1 hy.2
  obtain ⟨w, -, e3, -⟩ := C94_offset_near hc h hr _ hz.1 hz.2
  rcases hr with hr | hr
  · refine ⟨u, v, w, .inl ⟨hr.ltr, ?_, ?_, ?_⟩⟩ <;> rw [positionRangeR_eq h] <;> simp [e1, e2, e3, hr.ltr]
  · refine ⟨w, v, u, .inr ⟨hr.rtl, ?_, ?_, ?_⟩⟩ <;> rw [positionRangeR_eq h] <;> simp [e1, e2, e3, hr.rtl]

/-- C94.  A selection that starts and ends between clusters (or outside of the
run) is that of exact arithmetic. -/
theorem C94_range_exact {L : Layout φ} (hc : CrispLayout L) {k : Nat} {r : RunSpec φ} (h : RunAt L k r)
    (hr : LtrRun r ∨ RtlRun r) (a b : Nat) (ha : r.Edge (max (min a r.charEnd) r.charStart))
    (hb : r.Edge (max (min b r.charEnd) r.charStart)) :
    L.positionRangeR f32Round k a b = L.positionRange k a b := by
  have hse : r.charStart ≤ r.charEnd := by rcases hr with hr | hr <;> exact hr.start_end
  have c1 := clamp_bounds (c := a) hse
  have c2 := clamp_bounds (c := b) hse
  obtain ⟨v, v0, a1, a2, -, a3, -⟩ := C94_offset_near hc h hr _ c1.1 c1.2
  obtain ⟨w, w0, b1, b2, -, b3, -⟩ := C94_offset_near hc h hr _ c2.1 c2.2
  rw [(a3 ha).1] at a1
  rw [(b3 hb).1] at b1
  rw [positionRangeR_eq h, a1, b1]
  rcases hr with hr | hr
  · rw [positionRange_ltr h hr.ltr, a2, b2]
    simp [hr.ltr]
  · rw [positionRange_rtl h hr.rtl, a2, b2]
    simp [hr.rtl]

/-! ### The caret -/

/-- C94.  The caret in `float`: line, top and height as in exact arithmetic, x
within 1/64 pixel, and equal if the cursor is between clusters. -/
theorem C94_caret {L : Layout φ} (hc : CrispLayout L) {W : Rat} (hW : Crisp W) (al : XAlignment) (c : Nat) (a : Affinity)
    {k m : Nat} (hk : L.runContaining c a = some (k, m)) (hm : m < L.lines.length) {r : RunSpec φ} (h : RunAt L k r)
    (hr : LtrRun r ∨ RtlRun r) (h1 : r.charStart ≤ c) (h2 : c ≤ r.charEnd) :
    ∃ i i', L.cursorPixelPos W al c a = some i ∧ L.cursorPixelPosR f32Round W al c a = some i' ∧
      i'.y = i.y ∧ i'.height = i.height ∧ i'.line = i.line ∧
      (r.charEnd ≤ 16777216 → |i'.x - i.x| ≤ 1 / 64) ∧ (r.Edge c → i' = i) := by
  obtain ⟨v, w, e1, e2, e3, e4, e5, -⟩ := C94_offset_near hc h hr c h1 h2
  have hl := List.getElem?_eq_getElem hm
  have hxs := lineXStartR_eq hc hW m al
  obtain ⟨X, hX⟩ : ∃ X, L.lineXStart m W al = some X := by
    unfold Layout.lineXStart
    rw [hl]
    cases al <;> exact ⟨_, rfl⟩
  obtain ⟨x1, x2⟩ := hxs.2 X hX
  have ht := (hc.lines _ (List.getElem_mem hm)).2.2
  have hbound : |X + v| ≤ 98304 := by
    rw [abs_le] at *
    constructor <;> linarith
  have hnear : r.charEnd ≤ 16777216 → |f32Round (X + v) - (X + w)| ≤ 1 / 64 := by
    intro hs
    have r1 := round_err (x := X + v) (-7) (by norm_num) (lt_of_le_of_lt hbound (by norm_num))
    norm_num at r1
    have r2 := e3 hs
    rw [abs_le] at r1 r2 ⊢
    constructor <;> linarith
  have hexact : r.Edge c → f32Round (X + v) = X + w := by
    intro he
    obtain ⟨f1, f2⟩ := e4 he
    rw [← f1]
    exact (x1.add f2.1.half).round (hbound.trans (by norm_num))
  unfold Layout.cursorPixelPos Layout.cursorPixelPosR
  rw [hk]
  simp only
  rw [hxs.1, hX, e1, e2, hl]
  simp only
  by_cases h0 : m = 0
  · subst h0
    rw [if_pos rfl, if_pos rfl]
    have s := start_crisp hc (x := 0) ⟨.zero, by norm_num⟩
    rw [s.1.round (s.2.trans (by norm_num)), sub_zero, ht.round]
    refine ⟨_, _, rfl, rfl, rfl, rfl, rfl, hnear, fun he => ?_⟩
    rw [hexact he]
  · rw [if_neg h0, if_neg h0]
    have hp := List.getElem?_eq_getElem (show m - 1 < L.lines.length by omega)
    have hpt := (hc.lines _ (List.getElem_mem (show m - 1 < L.lines.length by omega))).2.2
    have s := start_crisp hc hpt
    rw [hp]
    simp only
    rw [s.1.round (s.2.trans (by norm_num)), ht.sub_round hpt]
    refine ⟨_, _, rfl, rfl, rfl, rfl, rfl, hnear, fun he => ?_⟩
    rw [hexact he]

/-! ### Cases -/

theorem sampleRuns_crisp {L : Layout Nat} (h : execLayout {} sampleRuns = some L) : CrispLayout L := by
  have hp : (execLayout {} sampleRuns).map (·.pos) = some [0, 0, 5, 0, 11, 0, 15, 0, 15, 0, 18, 1, 24, 0] := by decide +kernel
  have hl : (execLayout {} sampleRuns).map (·.lines) = some [⟨2, 24, 8, 10⟩] := by decide +kernel
  have hy : (execLayout {} sampleRuns).map (·.startY) = some 0 := by decide +kernel
  rw [h, Option.map_some, Option.some.injEq] at hp hl hy
  have hn : ∀ n : Nat, n ≤ 32768 → Crisp (n : Rat) := fun n hn =>
    ⟨⟨n * 64, by push_cast; ring⟩, by rw [abs_of_nonneg (by positivity)]; exact_mod_cast hn⟩
  refine ⟨?_, ?_, ⟨0, by rw [hy]; norm_num⟩, by rw [hy]; norm_num⟩
  · rw [hp]
    intro x hx
    simp only [List.mem_cons, List.not_mem_nil, or_false] at hx
    rcases hx with rfl | rfl | rfl | rfl | rfl | rfl | rfl | rfl | rfl | rfl | rfl | rfl | rfl | rfl
    all_goals first
      | exact_mod_cast hn 0 (by norm_num)
      | exact_mod_cast hn 1 (by norm_num)
      | exact_mod_cast hn 5 (by norm_num)
      | exact_mod_cast hn 11 (by norm_num)
      | exact_mod_cast hn 15 (by norm_num)
      | exact_mod_cast hn 18 (by norm_num)
      | exact_mod_cast hn 24 (by norm_num)
  · rw [hl]
    intro l hl
    cases List.mem_singleton.1 hl
    exact ⟨by exact_mod_cast hn 24 (by norm_num), by exact_mod_cast hn 8 (by norm_num), by exact_mod_cast hn 10 (by norm_num)⟩

example : ∃ L : Layout Nat, CrispLayout L ∧ RunAt L 0 sampleRun0 ∧ LtrRun sampleRun0 ∧ RunAt L 1 sampleRun1 ∧ RtlRun sampleRun1 := by
  obtain ⟨L, h, h0, h1⟩ := sampleRuns_at
  exact ⟨L, sampleRuns_crisp h, h0, sampleRun0_ltr, h1, sampleRun1_rtl⟩

/-- A ligature of three characters: thirds are rounded. -/
def ligatureOps : List (LayoutOp Nat) := [.run 7 [⟨40, 0, 0, 0⟩] 10 0 0 3 false, .line 10 8]

example : (execLayout {} ligatureOps).map (fun L => (L.glyphOffset 0 1, L.glyphOffsetR f32Round 0 1)) =
    some (some (10 / 3), some (13981014 / 4194304)) := by decide +kernel

example : (execLayout {} ligatureOps).map (fun L => (L.cursorPixelPos 31 .center 1 .default, L.cursorPixelPosR f32Round 31 .center 1 .default)) =
    some (some ⟨83 / 6, 0, 10, 0⟩, some ⟨7252651 / 524288, 0, 10, 0⟩) := by decide +kernel

end RichText
