import Verif.Proof.RoundedLayout
import Verif.Props.Built
/-!
C93: building a layout in `float`.
-/
namespace RichText
variable {φ : Type _} {β : Type _}

theorem round_double {y : Rat} (h : IsFloat y) : IsFloat (2 * y) := by
  obtain ⟨n, k, hn, hk, rfl⟩ := h
  exact ⟨n, k + 1, hn, by omega, by rw [zpow_add₀ (by norm_num)]; norm_num; ring⟩

/-- The factor of the vertical alignment is applied without rounding. -/
theorem round_align (a : YAlignment) {y : Rat} (h : IsFloat y) : f32Round ((a.toNat : Rat) * y) = (a.toNat : Rat) * y := by
  refine f32Round_float ?_
  cases a
  · exact ⟨0, 0, by norm_num, by norm_num, by simp [YAlignment.toNat]⟩
  · simpa [YAlignment.toNat] using h
  · simpa [YAlignment.toNat] using round_double h

theorem buildLayout_parts {L0 L : Layout φ} {ps : List (Paragraph β φ)} {count : Nat} {ya : YAlignment} {H : Rat}
    (h : buildLayout L0 ps count ya H = some L) :
    ∃ ops L1, paragraphsOps count ps 0 0 = some ops ∧ execLayout L0.clear ops = some L1 ∧ L = L1.alignY H ya := by
  unfold buildLayout at h
  simp only [Option.bind_eq_some_iff, Option.map_eq_some_iff] at h
  obtain ⟨ops, h1, L1, h2, rfl⟩ := h
  exact ⟨ops, L1, h1, h2, rfl⟩

theorem buildLayoutR_parts {rnd : Rat → Rat} {L0 L1 : Layout φ} {ps : List (Paragraph β φ)} {count : Nat} {ops : List (LayoutOp φ)}
    (h1 : paragraphsOps count ps 0 0 = some ops) (h2 : execLayoutR rnd L0.clear (ops.map (·.roundR rnd)) = some L1)
    (ya : YAlignment) (H : Rat) : buildLayoutR rnd L0 ps count ya H = some (L1.alignYR rnd H ya) := by
  unfold buildLayoutR
  rw [h1]
  show (execLayoutR rnd L0.clear (ops.map (·.roundR rnd))).map _ = _
  rw [h2]; rfl

/-- C93: if font metrics and the height of the text area are multiples of 1/64
pixel (FreeType's metrics are), the layout computed in `float` is that of exact
arithmetic, as long as no line is wider than 262144 pixels and neither the text
nor the area is higher than 131072 pixels. -/
theorem C93_build_exact {L0 L : Layout φ} {ps : List (Paragraph β φ)} {count : Nat} {ya : YAlignment} {H : Rat}
    (h : buildLayout L0 ps count ya H = some L) (hm : FineMetrics ps) (hH : Fine H) (hHb : |H| ≤ 131072)
    (hp : ∀ x ∈ L.pos, |x| ≤ 262144) (hl : ∀ l ∈ L.lines, |l.totalDescent| ≤ 131072) :
    buildLayoutR f32Round L0 ps count ya H = some L := by
  obtain ⟨ops, L1, h1, h2, rfl⟩ := buildLayout_parts h
  have hops := paragraphsOps_fine h1
  obtain ⟨k1, k2⟩ := execLayoutR_exact (fun op hop => ⟨(hops op hop).1, (hops op hop).2 hm⟩)
    (by simp [Layout.clear]) h2 hp hl
  rw [buildLayoutR_parts h1 k1]
  have ht : Fine L1.textHeight ∧ |L1.textHeight| ≤ 131072 := by
    unfold Layout.textHeight
    cases hg : L1.lines.getLast? with
    | none => exact ⟨.zero, by norm_num⟩
    | some l => exact ⟨k2 l (List.mem_of_getLast? hg), hl l (List.mem_of_getLast? hg)⟩
  have hd : |H - L1.textHeight| ≤ 262144 := by
    have ht2 := ht.2
    rw [abs_le] at *
    constructor <;> linarith
  have hf := hH.sub ht.1
  have e1 := hf.round hd
  have e2 : f32Round ((ya.toNat : Rat) * (H - L1.textHeight)) = (ya.toNat : Rat) * (H - L1.textHeight) := by
    rw [← e1]; exact round_align ya (f32Round_isFloat _)
  have e3 : f32Round ((ya.toNat : Rat) * (H - L1.textHeight) * (1 / 2)) = (ya.toNat : Rat) * (H - L1.textHeight) * (1 / 2) := by
    obtain ⟨n, hn⟩ := hf
    refine f32Round_float ?_
    cases ya
    · exact ⟨0, 0, by norm_num, by norm_num, by simp [YAlignment.toNat]⟩
    · refine isFloat_frac 7 (by norm_num) n (by rw [← hn]; simp [YAlignment.toNat]; ring) ?_
      simp only [YAlignment.toNat]
      rw [abs_mul]
      norm_num
      linarith
    · refine isFloat_frac 6 (by norm_num) n (by rw [← hn]; simp [YAlignment.toNat]; ring) ?_
      simp only [YAlignment.toNat]
      rw [show ((2 : Nat) : Rat) * (H - L1.textHeight) * (1 / 2) = H - L1.textHeight by push_cast; ring]
      norm_num
      linarith
  unfold Layout.alignYR Layout.alignY
  rw [e1, e2, e3]

/-- C93, any metrics (those of synthetic sub- and superscripts are divided by
0.7): everything but vertical positions is as in exact arithmetic, line `i` is
off by at most (3 i + 1) / 256 pixels, the start of the text by (3 n + 6) / 256
for `n` lines, if the text is below 131072 pixels. -/
theorem C93_build_near {L0 L : Layout φ} {ps : List (Paragraph β φ)} {count : Nat} {ya : YAlignment} {H : Rat}
    (h : buildLayout L0 ps count ya H = some L) (hHb : |H| ≤ 131072) (hp : ∀ x ∈ L.pos, |x| ≤ 262144) :
    ∃ L', buildLayoutR f32Round L0 ps count ya H = some L' ∧ L'.runs = L.runs ∧ L'.glyphs = L.glyphs ∧
      L'.charIdx = L.charIdx ∧ L'.pos = L.pos ∧
      L'.lines.map (fun l => (l.runsEnd, l.width, l.ascent)) = L.lines.map (fun l => (l.runsEnd, l.width, l.ascent)) ∧
      ((∀ l ∈ L'.lines, |l.totalDescent| < 131072) →
        (∀ (i : Nat) (a b : LineInfo), L.lines[i]? = some a → L'.lines[i]? = some b →
          |b.totalDescent - a.totalDescent| ≤ (3 * i + 1) / 256) ∧
        |L'.startY - L.startY| ≤ (3 * L.lines.length + 6) / 256) := by
  obtain ⟨ops, L1, h1, h2, rfl⟩ := buildLayout_parts h
  have hops := paragraphsOps_fine h1
  obtain ⟨L3, k1, k2, -, k4⟩ := execLayoutR_near (fun op hop => (hops op hop).1) h2 (L2 := L0.clear)
    ⟨rfl, rfl, rfl, rfl, rfl⟩ hp
  refine ⟨L3.alignYR f32Round H ya, ?_, k2.runs.symm, k2.glyphs.symm, k2.charIdx.symm, k2.pos.symm, k2.lines.symm, ?_⟩
  · exact buildLayoutR_parts h1 k1 ya H
  intro hb
  have hn := k4 (by intro i a b ha; simp [Layout.clear] at ha) hb
  refine ⟨hn, ?_⟩
  have hlen := k2.lines_length
  have ht : |L3.textHeight| < 131072 ∧ |L3.textHeight - L1.textHeight| ≤ 3 * L1.lines.length / 256 := by
    unfold Layout.textHeight
    cases hg : L1.lines.getLast? with
    | none =>
      have e : L1.lines = [] := by simpa using hg
      have e' : L3.lines = [] := by rw [e] at hlen; exact List.length_eq_zero_iff.1 hlen.symm
      simp [e', e]
    | some a =>
      have hne : L1.lines ≠ [] := by intro e; rw [e] at hg; cases hg
      have hpos := List.length_pos_iff.2 hne
      have hl : L3.lines.length - 1 < L3.lines.length := by omega
      have hg3 : L3.lines.getLast? = some L3.lines[L3.lines.length - 1] := by
        rw [List.getLast?_eq_getElem?]; exact List.getElem?_eq_getElem hl
      rw [hg3]
      rw [List.getLast?_eq_getElem?] at hg
      refine ⟨hb _ (List.getElem_mem _), ?_⟩
      have := hn _ a _ hg (by rw [hlen]; exact List.getElem?_eq_getElem hl)
      refine this.trans ?_
      rw [Nat.cast_sub (by omega)]
      push_cast
      linarith
  show |f32Round (f32Round (ya.toNat * f32Round (H - L3.textHeight)) * (1 / 2)) -
    ya.toNat * (H - L1.textHeight) * (1 / 2)| ≤ (3 * ((L1.lines.length : Nat) : Rat) + 6) / 256
  rw [round_align ya (f32Round_isFloat _)]
  have hd : |H - L3.textHeight| < 262144 := by
    have ht1 := ht.1
    rw [abs_le] at hHb
    rw [abs_lt] at *
    constructor <;> linarith
  have r1 := round_err (x := H - L3.textHeight) (-6) (by norm_num) (by norm_num; exact hd)
  norm_num at r1
  have hd2 : |f32Round (H - L3.textHeight)| < 262145 := by
    rw [abs_le] at r1
    rw [abs_lt] at *
    constructor <;> linarith
  have ht2 := ht.2
  have hnn : (0 : Rat) ≤ (L1.lines.length : Rat) := by positivity
  have hay : (0 : Rat) ≤ ya.toNat ∧ (ya.toNat : Rat) ≤ 2 := by
    cases ya <;> norm_num [YAlignment.toNat]
  have hs : |(ya.toNat : Rat) * f32Round (H - L3.textHeight) * (1 / 2)| < (2 : Rat) ^ ((-5 : Int) + 24) := by
    rw [abs_mul, abs_mul, abs_of_nonneg hay.1]
    norm_num
    have := mul_le_mul_of_nonneg_right hay.2 (abs_nonneg (f32Round (H - L3.textHeight)))
    linarith
  have r2 := round_err (-5) (by norm_num) hs
  norm_num at r2
  have r3 : |(ya.toNat : Rat) * f32Round (H - L3.textHeight) * (1 / 2) - ya.toNat * (H - L1.textHeight) * (1 / 2)| ≤
      1 / 128 + 3 * L1.lines.length / 256 := by
    rw [show (ya.toNat : Rat) * f32Round (H - L3.textHeight) * (1 / 2) - ya.toNat * (H - L1.textHeight) * (1 / 2) =
      ya.toNat * (1 / 2) * ((f32Round (H - L3.textHeight) - (H - L3.textHeight)) - (L3.textHeight - L1.textHeight)) by ring]
    rw [abs_mul, abs_of_nonneg (by linarith)]
    have hsum : |(f32Round (H - L3.textHeight) - (H - L3.textHeight)) - (L3.textHeight - L1.textHeight)| ≤
        1 / 128 + 3 * L1.lines.length / 256 := (abs_sub _ _).trans (by linarith)
    have := mul_le_mul_of_nonneg_right (show (ya.toNat : Rat) * (1 / 2) ≤ 1 by linarith)
      (abs_nonneg ((f32Round (H - L3.textHeight) - (H - L3.textHeight)) - (L3.textHeight - L1.textHeight)))
    linarith
  have tri := abs_sub_le (f32Round ((ya.toNat : Rat) * f32Round (H - L3.textHeight) * (1 / 2)))
    ((ya.toNat : Rat) * f32Round (H - L3.textHeight) * (1 / 2)) ((ya.toNat : Rat) * (H - L1.textHeight) * (1 / 2))
  norm_num at r3 tri ⊢
  linarith

/-- All that is stored is a `float`. -/
def Layout.Floats (L : Layout φ) : Prop :=
  (∀ x ∈ L.pos, IsFloat x) ∧ ∀ l ∈ L.lines, IsFloat l.width ∧ IsFloat l.totalDescent

theorem isFloat_zero : IsFloat 0 := ⟨0, 0, by norm_num, by norm_num, by simp⟩

/-- An integer rounded and divided by 64 is a `float`. -/
theorem scaleR_isFloat {x : Rat} (hx : Fine x) : IsFloat (scaleR f32Round x) := by
  obtain ⟨n, hn⟩ := hx
  unfold scaleR
  rw [hn]
  obtain ⟨m, k, hm, hk, e⟩ := f32Round_isFloat (n : Rat)
  by_cases hk6 : -143 ≤ k
  · refine ⟨m, k - 6, hm, by omega, ?_⟩
    rw [e, zpow_sub₀ (by norm_num)]
    norm_num
    ring
  · -- smaller than any rounded integer but zero
    have h1 : f32Round 1 = 1 := f32Round_float ⟨1, 0, by norm_num, by norm_num, by simp⟩
    have hm1 : f32Round (-1) = -1 := f32Round_float ⟨-1, 0, by norm_num, by norm_num, by simp⟩
    have hsmall : |f32Round (n : Rat)| < 1 := by
      rw [e, abs_mul, abs_of_pos (show (0 : Rat) < 2 ^ k by positivity)]
      have hm' : |(m : Rat)| ≤ 2 ^ 24 := by exact_mod_cast hm
      have hz : (2 : Rat) ^ k ≤ 2 ^ (-144 : Int) := zpow_le_zpow_right₀ (by norm_num) (by omega)
      have hp : (0 : Rat) ≤ 2 ^ k := by positivity
      have := mul_le_mul hm' hz hp (by norm_num)
      refine this.trans_lt ?_
      norm_num
    have h0 : n = 0 := by
      by_contra hne
      rcases lt_or_gt_of_ne hne with h | h
      · have h' : (n : Rat) ≤ -1 := by exact_mod_cast (by omega : n ≤ -1)
        have := f32Round_mono h'
        rw [hm1] at this
        rw [abs_lt] at hsmall
        linarith [hsmall.1]
      · have h' : (1 : Rat) ≤ n := by exact_mod_cast h
        have := f32Round_mono h'
        rw [h1] at this
        rw [abs_lt] at hsmall
        linarith [hsmall.2]
    subst h0
    simpa [f32Round] using isFloat_zero

theorem Layout.Floats.exec {L L1 : Layout φ} {op : LayoutOp φ} (h : L.Floats) (hop : op.Placed64)
    (he : (op.roundR f32Round).execR f32Round L = some L1) : L1.Floats := by
  have next : ∀ hh, IsFloat (L.nextDescentR f32Round (f32Round hh)) := by
    intro hh
    unfold Layout.nextDescentR
    split
    · exact f32Round_isFloat _
    · exact f32Round_isFloat _
  cases op with
  | run f gs ex ey s e r =>
    obtain ⟨h1, h2, h3⟩ := hop
    simp only [LayoutOp.roundR, LayoutOp.execR, LayoutOp.exec, Option.some.injEq] at he
    rw [foldl_glyphs] at he
    subst he
    refine ⟨?_, h.2⟩
    intro x hx
    simp only [Layout.appendGlyphPosition, Layout.appendRun, List.mem_append, List.mem_cons, List.not_mem_nil, or_false,
      List.mem_flatMap, List.mem_map] at hx
    rcases hx with (hx | ⟨g, ⟨g', hg', rfl⟩, hx⟩) | rfl | rfl
    · exact h.1 x hx
    · rcases hx with rfl | rfl
      · exact scaleR_isFloat (h1 g' hg').1
      · exact scaleR_isFloat (h1 g' hg').2
    · exact scaleR_isFloat h2
    · exact scaleR_isFloat h3
  | line hh a =>
    simp only [LayoutOp.roundR, LayoutOp.execR, Layout.appendLineR] at he
    split at he
    · cases he
    · split at he
      · cases he
      · rename_i w hw
        cases he
        refine ⟨h.1, ?_⟩
        intro l hl
        rcases List.mem_append.1 hl with hl | hl
        · exact h.2 l hl
        · rw [List.mem_singleton.1 hl]
          exact ⟨h.1 w (List.mem_of_getElem? hw), next hh⟩
  | emptyLine f c hh a =>
    simp only [LayoutOp.roundR, LayoutOp.execR, Layout.appendEmptyLineR, Option.some.injEq] at he
    subst he
    refine ⟨?_, ?_⟩
    · intro x hx
      rcases List.mem_append.1 hx with hx | hx
      · exact h.1 x hx
      · have : x = 0 := by simpa using hx
        rw [this]; exact isFloat_zero
    · intro l hl
      rcases List.mem_append.1 hl with hl | hl
      · exact h.2 l hl
      · rw [List.mem_singleton.1 hl]
        exact ⟨isFloat_zero, next hh⟩
  | setOffset i o =>
    simp only [LayoutOp.roundR, LayoutOp.execR, LayoutOp.exec] at he
    unfold Layout.setRunCharEndOffset at he
    split at he
    · cases he
    · cases he; exact h
  | startY y => exact absurd hop id
  | clear => exact absurd hop id

theorem Layout.Floats.run {ops : List (LayoutOp φ)} : ∀ {L L1 : Layout φ}, L.Floats → (∀ op ∈ ops, op.Placed64) →
    execLayoutR f32Round L (ops.map (·.roundR f32Round)) = some L1 → L1.Floats := by
  induction ops with
  | nil => intro L L1 h _ he; cases he; exact h
  | cons op ops ih =>
    intro L L1 h hop he
    simp only [List.map_cons] at he
    unfold execLayoutR at he
    split at he
    · cases he
    · rename_i L2 h2
      exact ih (h.exec (hop op (List.mem_cons_self ..)) h2) (fun o ho => hop o (List.mem_cons_of_mem _ ho)) he

/-- C93: whatever is built, and however large it is, every position, every width and lower edge of a line and the start of
the text are numbers that `float` has. -/
theorem C93_floats {L0 L : Layout φ} {ps : List (Paragraph β φ)} {count : Nat} {ya : YAlignment} {H : Rat}
    (h : buildLayoutR f32Round L0 ps count ya H = some L) :
    (∀ x ∈ L.pos, IsFloat x) ∧ (∀ l ∈ L.lines, IsFloat l.width ∧ IsFloat l.totalDescent) ∧ IsFloat L.startY := by
  unfold buildLayoutR at h
  simp only [Option.bind_eq_some_iff, Option.map_eq_some_iff] at h
  obtain ⟨ops, h1, L1, h2, rfl⟩ := h
  have h3 : execLayoutR f32Round L0.clear (ops.map (·.roundR f32Round)) = some L1 := h2
  have hf : L1.Floats := Layout.Floats.run (L := L0.clear) ⟨by simp [Layout.clear], by simp [Layout.clear]⟩
    (fun op hop => (paragraphsOps_fine h1 op hop).1) h3
  exact ⟨hf.1, hf.2, f32Round_isFloat _⟩

/-! ### Cases -/

/-- The model with roundings removed is the exact model. -/
theorem buildLayoutR_id (L : Layout φ) (ps : List (Paragraph β φ)) (count : Nat) (ya : YAlignment) (H : Rat) :
    buildLayoutR id L ps count ya H = buildLayout L ps count ya H := by
  unfold buildLayoutR buildLayout
  simp only [execLayoutR_id]
  rfl

theorem ltrParagraphs_fine : FineMetrics ltrParagraphs := by
  intro p hp
  simp only [ltrParagraphs, List.mem_cons, List.not_mem_nil, or_false] at hp
  rcases hp with rfl | rfl | rfl <;>
  exact ⟨fun f => ⟨⟨(10 + f) * 64, by simp [demoEnv]⟩, ⟨-2 * 64, by norm_num [demoEnv]⟩⟩, ⟨8 * 64, by norm_num⟩, ⟨-2 * 64, by norm_num⟩⟩

example : ∃ L, buildLayout {} ltrParagraphs 8 .center 100 = some L ∧ L.lines.length = 3 ∧
    (∀ x ∈ L.pos, |x| ≤ 262144) ∧ ∀ l ∈ L.lines, |l.totalDescent| ≤ 131072 := by
  refine ⟨(buildLayout {} ltrParagraphs 8 .center 100).getD {}, ?_, ?_, ?_, ?_⟩ <;> decide +kernel

example : buildLayoutR f32Round {} ltrParagraphs 8 .center 100 = buildLayout {} ltrParagraphs 8 .center 100 := by
  decide +kernel

/-- Superscript metrics: divided by 0.7. -/
def supParagraphs : List (Paragraph (Nat × Bool) Nat) :=
  [⟨1, 1, demoEnv 0 0 fun _ _ => [], [], 5, ⟨14979657 / 1048576, -(4493897 / 2097152)⟩⟩,
   ⟨1, 1, demoEnv 0 0 fun _ _ => [], [], 5, ⟨14979657 / 1048576, -(4493897 / 2097152)⟩⟩]

example : (14979657 / 1048576 : Rat) = f32Round (10 / f32Round (7 / 10)) := by decide +kernel

example : ((buildLayout {} supParagraphs 2 .top 100).map fun L => L.lines.map (·.totalDescent)) =
      some [34453211 / 2097152, 34453211 / 1048576, 103359633 / 2097152] ∧
    ((buildLayoutR f32Round {} supParagraphs 2 .top 100).map fun L => L.lines.map (·.totalDescent)) =
      some [8613303 / 524288, 8613303 / 262144, 6459977 / 131072] := by decide +kernel

/-- Characters 16777217/64 pixels wide. -/
def wideEnv : ParaEnv (Nat × Bool) Nat :=
  { demoEnv 0 2 (fun s t => [⟨s, t - s, 0⟩]) with
    shape := fun _ v a b => revIf v.2 ((List.range (b - a)).map fun i => ⟨100 + a + i, i, 16777217, 0, 0, 0⟩) }

/-- Wider lines are rounded: the bound of `C93_build_exact` is the best
possible. -/
theorem C93_limit_violated : ∃ L L' : Layout Nat, buildLayout {} [⟨2, 0, wideEnv, [(2, (0, false))], 5, ⟨8, -2⟩⟩] 2 .top 100 = some L ∧
    buildLayoutR f32Round {} [⟨2, 0, wideEnv, [(2, (0, false))], 5, ⟨8, -2⟩⟩] 2 .top 100 = some L' ∧
    L.pos[2]? = some (16777217 / 64) ∧ L'.pos[2]? = some (16777216 / 64) := by
  refine ⟨(buildLayout {} [⟨2, 0, wideEnv, [(2, (0, false))], 5, ⟨8, -2⟩⟩] 2 .top 100).getD {},
    (buildLayoutR f32Round {} [⟨2, 0, wideEnv, [(2, (0, false))], 5, ⟨8, -2⟩⟩] 2 .top 100).getD {}, ?_, ?_, ?_, ?_⟩ <;> decide +kernel

end RichText
