import Verif.Model.RoundedLayout
import Verif.Proof.Rounding
import Verif.Proof.Layout
/-! Building a layout in `float`. -/
namespace RichText
variable {φ : Type _} {β : Type _}

/-- A multiple of 1/64. -/
def Fine (x : Rat) : Prop := ∃ n : Int, x * 64 = n

theorem Fine.add {x y : Rat} (hx : Fine x) (hy : Fine y) : Fine (x + y) := by
  obtain ⟨a, ha⟩ := hx
  obtain ⟨b, hb⟩ := hy
  exact ⟨a + b, by push_cast; rw [← ha, ← hb]; ring⟩

theorem Fine.sub {x y : Rat} (hx : Fine x) (hy : Fine y) : Fine (x - y) := by
  obtain ⟨a, ha⟩ := hx
  obtain ⟨b, hb⟩ := hy
  exact ⟨a - b, by push_cast; rw [← ha, ← hb]; ring⟩

theorem Fine.zero : Fine 0 := ⟨0, by simp⟩

theorem Fine.div (n : Int) : Fine ((n : Rat) / 64) := ⟨n, by ring⟩

theorem Fine.max {x y : Rat} (hx : Fine x) (hy : Fine y) (p : Prop) [Decidable p] : Fine (if p then x else y) := by
  split <;> assumption

/-- Multiples of 1/64 up to 2^18 are floats. -/
theorem Fine.round {x : Rat} (h : Fine x) (hb : |x| ≤ 262144) : f32Round x = x := by
  obtain ⟨n, hn⟩ := h
  refine f32Round_float (isFloat_frac 6 (by norm_num) n (by rw [← hn]; norm_num) ?_)
  have := mul_le_mul_of_nonneg_right hb (show (0 : Rat) ≤ 2 ^ 6 by norm_num)
  refine this.trans ?_
  norm_num

theorem Fine.scale {x : Rat} (h : Fine x) (hb : |x| ≤ 262144) : scaleR f32Round x = x := by
  obtain ⟨n, hn⟩ := h
  unfold scaleR
  rw [f32Round_float (isFloat_frac 0 (by norm_num) n (by rw [← hn]; norm_num) ?_)]
  · ring
  · rw [abs_mul]
    have := mul_le_mul_of_nonneg_right hb (show (0 : Rat) ≤ 64 by norm_num)
    norm_num
    linarith

/-! ### The exact functions -/

theorem execR_id (L : Layout φ) (op : LayoutOp φ) : op.execR id L = op.exec L := by
  cases op <;> rfl

theorem roundR_id (op : LayoutOp φ) : op.roundR id = op := by
  have e : ∀ x : Rat, scaleR id x = x := fun x => by unfold scaleR; simp
  have eg : (fun g : GlyphSpec => g.roundR id) = id := by
    funext g; simp [GlyphSpec.roundR, e]
  cases op <;> simp [LayoutOp.roundR, e, eg]

theorem execLayoutR_id (L : Layout φ) (ops : List (LayoutOp φ)) :
    execLayoutR id L (ops.map (·.roundR id)) = execLayout L ops := by
  induction ops generalizing L with
  | nil => rfl
  | cons op ops ih =>
    simp only [List.map_cons, execLayoutR, execLayout]
    rw [roundR_id, execR_id]
    cases op.exec L with
    | none => rfl
    | some L1 => exact ih L1

/-! ### The calls made by the builder -/

/-- Calls as the builder makes them: positions are multiples of 1/64. -/
def LayoutOp.Placed64 : LayoutOp φ → Prop
  | .run _ gs ex ey _ _ _ => (∀ g ∈ gs, Fine g.x ∧ Fine g.y) ∧ Fine ex ∧ Fine ey
  | .line _ _ => True
  | .emptyLine _ _ _ _ => True
  | .setOffset _ _ => True
  | .startY _ => False
  | .clear => False

/-- Line heights and ascents are multiples of 1/64. -/
def LayoutOp.Height64 : LayoutOp φ → Prop
  | .line h a => Fine h ∧ Fine a
  | .emptyLine _ _ h a => Fine h ∧ Fine a
  | _ => True

theorem placeAt_fine (v : Bool) (a b : Int) : Fine (placeAt v a b).1 ∧ Fine (placeAt v a b).2 := by
  unfold placeAt
  split <;> exact ⟨.div _, .div _⟩

theorem emitGlyphs_fine {b : Shaped φ} {ws : List Int} {v : Bool} : ∀ {is : List Nat} {w : Int} {r : List GlyphSpec × Int},
    emitGlyphs b ws v is w = some r → ∀ g ∈ r.1, Fine g.x ∧ Fine g.y
  | [], _, _, h => by cases h; simp
  | i :: t, w, r, h => by
    unfold emitGlyphs at h
    split at h
    · simp only [Option.map_eq_some_iff] at h
      obtain ⟨r', h', rfl⟩ := h
      intro g hg
      rcases List.mem_cons.1 hg with rfl | hg
      · exact placeAt_fine _ _ _
      · exact emitGlyphs_fine h' g hg
    · cases h

theorem visualRun_fine {b : Shaped φ} {ws : List Int} {v : Bool} {p : VisualPiece} {w : Int} {r : LayoutOp φ × Int}
    (h : visualRun b ws v p w = some r) : r.1.Placed64 ∧ r.1.Height64 := by
  unfold visualRun at h
  split at h
  · split at h
    · rename_i he _
      cases h
      exact ⟨⟨emitGlyphs_fine he, placeAt_fine _ _ _⟩, trivial⟩
    · cases h
  · cases h

theorem visualRuns_fine {b : Shaped φ} {ws : List Int} {v : Bool} : ∀ {ps : List VisualPiece} {w : Int} {ops : List (LayoutOp φ)},
    visualRuns b ws v ps w = some ops → ∀ op ∈ ops, op.Placed64 ∧ op.Height64
  | [], _, _, h => by cases h; simp
  | p :: t, w, ops, h => by
    unfold visualRuns at h
    split at h
    · cases h
    · rename_i r hr
      simp only [Option.map_eq_some_iff] at h
      obtain ⟨o, ho, rfl⟩ := h
      intro op hop
      rcases List.mem_cons.1 hop with rfl | hop
      · exact visualRun_fine hr
      · exact visualRuns_fine ho op hop

/-- Metrics that are multiples of 1/64. -/
def Metrics.Fine (m : Metrics) : Prop := RichText.Fine m.ascent ∧ RichText.Fine m.descent

theorem maxMetrics_fine {runs : List (LogicalRun φ)} {metrics : φ → Metrics} (hm : ∀ f, (metrics f).Fine) :
    ∀ {ps : List VisualPiece} {m m' : Metrics}, maxMetrics runs metrics ps m = some m' → m.Fine → m'.Fine
  | [], _, _, h, h0 => by cases h; exact h0
  | p :: t, m, m', h, h0 => by
    unfold maxMetrics at h
    split at h
    · cases h
    · refine maxMetrics_fine hm h ⟨?_, ?_⟩
      · exact Fine.max (hm _).1 h0.1 _
      · exact Fine.max (hm _).2 h0.2 _

theorem lineOps_fine {e : ParaEnv β φ} {b : Shaped φ} {l : BrokenLine} {r : List (LayoutOp φ) × List VisualPiece}
    (h : lineOps e b l = some r) :
    ∀ op ∈ r.1, op.Placed64 ∧ ((∀ f, (e.metrics f).Fine) → op.Height64) := by
  unfold lineOps at h
  simp only [Option.bind_eq_some_iff, Option.map_eq_some_iff] at h
  obtain ⟨ps, _, ops, h2, m, h3, rfl⟩ := h
  intro op hop
  rcases List.mem_append.1 hop with hop | hop
  · exact ⟨(visualRuns_fine h2 op hop).1, fun _ => (visualRuns_fine h2 op hop).2⟩
  · cases List.mem_singleton.1 hop
    refine ⟨trivial, fun hm => ?_⟩
    have := maxMetrics_fine hm h3 ⟨.zero, .zero⟩
    exact ⟨this.1.sub this.2, this.1⟩

theorem linesOps_fine {e : ParaEnv β φ} {b : Shaped φ} : ∀ {ls : List BrokenLine} {r : List (LayoutOp φ) × List VisualPiece},
    linesOps e b ls = some r → ∀ op ∈ r.1, op.Placed64 ∧ ((∀ f, (e.metrics f).Fine) → op.Height64)
  | [], _, h => by cases h; simp
  | l :: t, r, h => by
    unfold linesOps at h
    split at h
    · rename_i h1 h2
      cases h
      intro op hop
      rcases List.mem_append.1 hop with hop | hop
      · exact lineOps_fine h1 op hop
      · exact linesOps_fine h2 op hop
    · cases h

/-- All metrics used in a text are multiples of 1/64. -/
def FineMetrics (ps : List (Paragraph β φ)) : Prop :=
  ∀ p ∈ ps, (∀ f, (p.env.metrics f).Fine) ∧ p.defaultMetrics.Fine

theorem paragraphOps_fine {p : Paragraph β φ} {offset n : Nat} {r : List (LayoutOp φ) × Nat × Nat}
    (h : paragraphOps p offset n = some r) :
    ∀ op ∈ r.1, op.Placed64 ∧ ((∀ f, (p.env.metrics f).Fine) ∧ p.defaultMetrics.Fine → op.Height64) := by
  unfold paragraphOps at h
  split at h
  · unfold buildParagraph at h
    simp only [Option.bind_eq_some_iff, Option.map_eq_some_iff] at h
    obtain ⟨b, _, ls, _, x, h3, rfl⟩ := h
    intro op hop
    exact ⟨(linesOps_fine h3 op hop).1, fun hm => (linesOps_fine h3 op hop).2 hm.1⟩
  · cases h
    intro op hop
    cases List.mem_singleton.1 hop
    exact ⟨trivial, fun hm => ⟨hm.2.1.sub hm.2.2, hm.2.1⟩⟩

theorem finalLine_fine (p : Paragraph β φ) (o c r : Nat) :
    ∀ op ∈ finalLine p o c r, op.Placed64 ∧ (p.defaultMetrics.Fine → op.Height64) := by
  unfold finalLine
  split
  · intro op hop
    simp only [List.mem_cons, List.not_mem_nil, or_false] at hop
    rcases hop with rfl | rfl
    · exact ⟨trivial, fun hm => ⟨hm.1.sub hm.2, hm.1⟩⟩
    · exact ⟨trivial, fun _ => trivial⟩
  · simp

theorem paragraphsOps_fine {count : Nat} : ∀ {ps : List (Paragraph β φ)} {offset n : Nat} {ops : List (LayoutOp φ)},
    paragraphsOps count ps offset n = some ops → ∀ op ∈ ops, op.Placed64 ∧ (FineMetrics ps → op.Height64)
  | [], _, _, _, h => by cases h; simp
  | p :: t, offset, n, ops, h => by
    unfold paragraphsOps at h
    split at h
    · cases h
    · rename_i r hr
      simp only [Option.map_eq_some_iff] at h
      obtain ⟨rest, h1, rfl⟩ := h
      intro op hop
      simp only [List.mem_append, List.mem_singleton] at hop
      rcases hop with ((hop | rfl) | hop) | hop
      · have := paragraphOps_fine hr op hop
        exact ⟨this.1, fun hm => this.2 (hm p (List.mem_cons_self ..))⟩
      · exact ⟨trivial, fun _ => trivial⟩
      · have := finalLine_fine _ _ _ _ op hop
        exact ⟨this.1, fun hm => this.2 (hm p (List.mem_cons_self ..)).2⟩
      · have := paragraphsOps_fine h1 op hop
        exact ⟨this.1, fun hm => this.2 fun q hq => hm q (List.mem_cons_of_mem _ hq)⟩

/-! ### Execution -/

/-- Positions and lines are only appended. -/
theorem exec_prefix {L L1 : Layout φ} {op : LayoutOp φ} (hop : op.Placed64) (h : op.exec L = some L1) :
    L.pos <+: L1.pos ∧ L.lines <+: L1.lines := by
  cases op with
  | run font gs ex ey s e rtl =>
    cases h
    rw [foldl_glyphs]
    simp [Layout.appendGlyphPosition, Layout.appendRun]
  | line hh a =>
    simp only [LayoutOp.exec] at h
    unfold Layout.appendLine at h
    split at h
    · cases h
    · split at h
      · cases h
      · cases h; simp
  | emptyLine font c hh a => cases h; simp [Layout.appendEmptyLine]
  | setOffset i o =>
    simp only [LayoutOp.exec] at h
    unfold Layout.setRunCharEndOffset at h
    split at h
    · cases h
    · cases h; simp
  | startY y => exact absurd hop id
  | clear => exact absurd hop id

theorem execLayout_prefix {ops : List (LayoutOp φ)} : ∀ {L L' : Layout φ}, (∀ op ∈ ops, op.Placed64) →
    execLayout L ops = some L' → L.pos <+: L'.pos ∧ L.lines <+: L'.lines := by
  induction ops with
  | nil => intro L L' _ h; cases h; exact ⟨List.prefix_refl _, List.prefix_refl _⟩
  | cons op ops ih =>
    intro L L' ho h
    unfold execLayout at h
    split at h
    · cases h
    · rename_i L1 h1
      have a := exec_prefix (ho op (List.mem_cons_self ..)) h1
      have b := ih (fun o h => ho o (List.mem_cons_of_mem _ h)) h
      exact ⟨a.1.trans b.1, a.2.trans b.2⟩

/-- A run with small positions is stored without rounding. -/
theorem run_round {L L1 : Layout φ} {op : LayoutOp φ} (hop : op.Placed64) (h : op.exec L = some L1)
    (hp : ∀ x ∈ L1.pos, |x| ≤ 262144) (hr : ∃ f gs ex ey s e r, op = .run f gs ex ey s e r) :
    op.roundR f32Round = op := by
  obtain ⟨f, gs, ex, ey, s, e, r, rfl⟩ := hr
  obtain ⟨h1, h2, h3⟩ := hop
  cases h
  rw [foldl_glyphs] at hp
  simp only [Layout.appendGlyphPosition, Layout.appendRun, List.mem_append, List.mem_cons, List.not_mem_nil, or_false,
    List.mem_flatMap] at hp
  have e1 : gs.map (·.roundR f32Round) = gs := by
    conv_rhs => rw [← List.map_id gs]
    refine List.map_congr_left fun g hg => ?_
    have hx := (h1 g hg).1.scale (hp g.x (.inl (.inr ⟨g, hg, by simp⟩)))
    have hy := (h1 g hg).2.scale (hp g.y (.inl (.inr ⟨g, hg, by simp⟩)))
    simp [GlyphSpec.roundR, hx, hy]
  simp only [LayoutOp.roundR, e1, h2.scale (hp ex (.inr (.inl rfl))), h3.scale (hp ey (.inr (.inr rfl)))]

theorem nextDescent_round {L : Layout φ} {h : Rat} (hh : Fine h) (hl : ∀ l ∈ L.lines, Fine l.totalDescent ∧ |l.totalDescent| ≤ 131072)
    (hn : |L.nextDescent h| ≤ 131072) :
    f32Round h = h ∧ L.nextDescentR f32Round h = L.nextDescent h ∧ Fine (L.nextDescent h) := by
  unfold Layout.nextDescentR
  unfold Layout.nextDescent at hn ⊢
  cases hg : L.lines.getLast? with
  | none =>
    rw [hg] at hn
    simp only at hn ⊢
    exact ⟨hh.round (by linarith), trivial, hh⟩
  | some l =>
    rw [hg] at hn
    obtain ⟨l1, l2⟩ := hl l (List.mem_of_getLast? hg)
    simp only at hn ⊢
    have hs := l1.add hh
    refine ⟨hh.round ?_, hs.round (by linarith), hs⟩
    rw [abs_le] at hn l2 ⊢
    constructor <;> linarith

/-- One call without rounding. -/
theorem execR_exact {L L1 : Layout φ} {op : LayoutOp φ} (hop : op.Placed64 ∧ op.Height64) (h1 : op.exec L = some L1)
    (h0 : ∀ l ∈ L.lines, Fine l.totalDescent) (hp1 : ∀ x ∈ L1.pos, |x| ≤ 262144)
    (hl1 : ∀ l ∈ L1.lines, |l.totalDescent| ≤ 131072) :
    (op.roundR f32Round).execR f32Round L = some L1 ∧ ∀ l ∈ L1.lines, Fine l.totalDescent := by
  have hpre := exec_prefix hop.1 h1
  have hl0 : ∀ l ∈ L.lines, Fine l.totalDescent ∧ |l.totalDescent| ≤ 131072 := fun x hx =>
    ⟨h0 x hx, hl1 x (hpre.2.subset hx)⟩
  cases op with
  | run font gs ex ey s e rtl =>
    rw [run_round hop.1 h1 hp1 ⟨_, _, _, _, _, _, _, rfl⟩]
    refine ⟨h1, ?_⟩
    simp only [LayoutOp.exec, Option.some.injEq] at h1
    subst h1
    rw [foldl_glyphs]
    exact h0
  | line hh a =>
    simp only [LayoutOp.exec] at h1
    unfold Layout.appendLine at h1
    split at h1
    · cases h1
    · rename_i r hr
      split at h1
      · cases h1
      · rename_i w hw
        simp only [Option.some.injEq] at h1
        subst h1
        have hn : |L.nextDescent hh| ≤ 131072 := hl1 ⟨L.runs.length, w, a, L.nextDescent hh⟩ (by simp)
        obtain ⟨a1, a2, a3⟩ := nextDescent_round hop.2.1 hl0 hn
        refine ⟨?_, ?_⟩
        · simp only [LayoutOp.roundR, LayoutOp.execR, Layout.appendLineR, hr, hw, a1, a2]
        · intro l hlm
          simp only [List.mem_append, List.mem_singleton] at hlm
          rcases hlm with hlm | rfl
          · exact h0 l hlm
          · exact a3
  | emptyLine font c hh a =>
    simp only [LayoutOp.exec, Option.some.injEq] at h1
    subst h1
    have hn : |L.nextDescent hh| ≤ 131072 :=
      hl1 ⟨L.runs.length + 1, 0, a, L.nextDescent hh⟩ (by simp [Layout.appendEmptyLine])
    obtain ⟨a1, a2, a3⟩ := nextDescent_round hop.2.1 hl0 hn
    refine ⟨?_, ?_⟩
    · simp only [LayoutOp.roundR, LayoutOp.execR, Layout.appendEmptyLineR, Layout.appendEmptyLine, a1, a2]
    · intro l hlm
      simp only [Layout.appendEmptyLine, List.mem_append, List.mem_singleton] at hlm
      rcases hlm with hlm | rfl
      · exact h0 l hlm
      · exact a3
  | setOffset i o =>
    refine ⟨h1, ?_⟩
    simp only [LayoutOp.exec] at h1
    unfold Layout.setRunCharEndOffset at h1
    split at h1
    · cases h1
    · cases h1; exact h0
  | startY y => exact absurd hop.1 id
  | clear => exact absurd hop.1 id

/-- With small positions and heights that are multiples of 1/64 nothing is
rounded. -/
theorem execLayoutR_exact {ops : List (LayoutOp φ)} : ∀ {L L' : Layout φ}, (∀ op ∈ ops, op.Placed64 ∧ op.Height64) →
    (∀ l ∈ L.lines, Fine l.totalDescent) → execLayout L ops = some L' → (∀ x ∈ L'.pos, |x| ≤ 262144) →
    (∀ l ∈ L'.lines, |l.totalDescent| ≤ 131072) →
    execLayoutR f32Round L (ops.map (·.roundR f32Round)) = some L' ∧ ∀ l ∈ L'.lines, Fine l.totalDescent := by
  induction ops with
  | nil => intro L L' _ h0 h _ _; cases h; exact ⟨rfl, h0⟩
  | cons op ops ih =>
    intro L L' ho h0 h hp hl
    unfold execLayout at h
    split at h
    · cases h
    · rename_i L1 h1
      have hop := ho op (List.mem_cons_self ..)
      have hrest := fun o h => ho o (List.mem_cons_of_mem op h)
      have hpre2 := execLayout_prefix (fun o h => (hrest o h).1) h
      have key := execR_exact hop h1 h0 (fun x hx => hp x (hpre2.1.subset hx)) (fun x hx => hl x (hpre2.2.subset hx))
      obtain ⟨k1, k2⟩ := ih hrest key.2 h hp hl
      simp only [List.map_cons, execLayoutR, key.1]
      exact ⟨k1, k2⟩

/-! ### Metrics that are not multiples of 1/64 -/

/-- Two layouts that differ in the vertical positions of the lines only. -/
structure SameBut (L L' : Layout φ) : Prop where
  runs : L.runs = L'.runs
  glyphs : L.glyphs = L'.glyphs
  charIdx : L.charIdx = L'.charIdx
  pos : L.pos = L'.pos
  lines : L.lines.map (fun l => (l.runsEnd, l.width, l.ascent)) = L'.lines.map (fun l => (l.runsEnd, l.width, l.ascent))

/-- The error of the vertical positions, at most 1/256 and 3/256 more per line. -/
def LinesNear (L L' : Layout φ) : Prop :=
  ∀ (i : Nat) (a b : LineInfo), L.lines[i]? = some a → L'.lines[i]? = some b →
    |b.totalDescent - a.totalDescent| ≤ (3 * i + 1) / 256

/-- A bound on the result is one on the number rounded. -/
theorem lt_of_round {x : Rat} (k : Int) (hk : -149 ≤ k) (h : |f32Round x| < (2 : Rat) ^ k) : |x| < (2 : Rat) ^ k := by
  have f : IsFloat ((2 : Rat) ^ k) := ⟨1, k, by norm_num, hk, by simp⟩
  rw [abs_lt] at h ⊢
  constructor
  · by_contra hc
    have := f32Round_mono (not_lt.1 hc)
    rw [f32Round_float (isFloat_neg f)] at this
    linarith [h.1]
  · by_contra hc
    have := f32Round_mono (not_lt.1 hc)
    rw [f32Round_float f] at this
    linarith [h.2]

/-- The error of rounding a number below `2^(k + 24)`. -/
theorem round_err {x : Rat} (k : Int) (hk : -149 ≤ k) (h : |x| < (2 : Rat) ^ (k + 24)) :
    |f32Round x - x| ≤ (2 : Rat) ^ k / 2 := by
  by_cases h0 : x = 0
  · subst h0
    simp only [f32Round, if_true, sub_self, abs_zero]
    positivity
  · have h1 := f32Round_error x
    have h2 := ulp_le h0 k hk h
    linarith

theorem SameBut.lines_length {L L' : Layout φ} (h : SameBut L L') : L.lines.length = L'.lines.length := by
  simpa using congrArg List.length h.lines

theorem sameBut_push {L L' : Layout φ} (h : SameBut L L') (e : Nat) (w a t t' : Rat) (ps : List Rat)
    (rs : List (VisualRun φ)) :
    SameBut { L with pos := L.pos ++ ps, runs := L.runs ++ rs, lines := L.lines ++ [⟨e, w, a, t⟩] }
      { L' with pos := L'.pos ++ ps, runs := L'.runs ++ rs, lines := L'.lines ++ [⟨e, w, a, t'⟩] } :=
  ⟨by simp [h.runs], h.glyphs, h.charIdx, by simp [h.pos], by simp [h.lines]⟩

/-- The next line. -/
theorem near_push {L L' : Layout φ} (hs : SameBut L L') {h : Rat} (hn : LinesNear L L')
    (hl : ∀ l ∈ L'.lines, |l.totalDescent| < 131072) (h2 : |L'.nextDescentR f32Round (f32Round h)| < 131072) :
    |L'.nextDescentR f32Round (f32Round h) - L.nextDescent h| ≤ (3 * L.lines.length + 1) / 256 := by
  unfold Layout.nextDescentR at h2 ⊢
  unfold Layout.nextDescent
  have hlen := hs.lines_length
  cases hg : L.lines.getLast? with
  | none =>
    have e : L.lines = [] := by simpa using hg
    have e' : L'.lines = [] := by rw [e] at hlen; exact List.length_eq_zero_iff.1 hlen.symm
    simp only [e', List.getLast?_nil] at h2 ⊢
    have := round_err (-7) (by norm_num) (lt_of_round (-7 + 24) (by norm_num) (by norm_num; exact h2))
    norm_num at this
    simp only [e, List.length_nil]
    norm_num
    linarith
  | some a =>
    have hne : L.lines ≠ [] := by intro e; rw [e] at hg; cases hg
    have hpos := List.length_pos_iff.2 hne
    have hb : ∃ b, L'.lines.getLast? = some b ∧ L'.lines[L.lines.length - 1]? = some b := by
      rw [List.getLast?_eq_getElem?, ← hlen]
      exact ⟨_, List.getElem?_eq_getElem (by omega), List.getElem?_eq_getElem (by omega)⟩
    obtain ⟨b, hb1, hb2⟩ := hb
    rw [List.getLast?_eq_getElem?] at hg
    have hab := hn _ a b hg hb2
    have hbl := hl b (List.mem_of_getElem? hb2)
    rw [hb1] at h2 ⊢
    simp only at h2 ⊢
    have s1 := lt_of_round (-7 + 24) (by norm_num) (by norm_num; exact h2)
    have r1 := round_err (-7) (by norm_num) s1
    norm_num at s1 r1
    have s2 : |f32Round h| < 262144 := by
      rw [abs_lt] at s1 hbl ⊢
      constructor <;> linarith
    have r2 := round_err (-6) (by norm_num) (lt_of_round (-6 + 24) (by norm_num) (by norm_num; exact s2))
    norm_num at r2
    have hc : ((L.lines.length - 1 : Nat) : Rat) = (L.lines.length : Rat) - 1 := by
      rw [Nat.cast_sub (by omega)]; norm_num
    rw [hc] at hab
    rw [abs_le] at *
    constructor <;> linarith

theorem near_append {L L' X X' : Layout φ} (hlen : L.lines.length = L'.lines.length) {a b : LineInfo} (hn : LinesNear L L')
    (hX : X.lines = L.lines ++ [a]) (hX' : X'.lines = L'.lines ++ [b])
    (h : |b.totalDescent - a.totalDescent| ≤ (3 * L.lines.length + 1) / 256) : LinesNear X X' := by
  intro i x y hx hy
  rw [hX] at hx
  rw [hX'] at hy
  rcases getElem?_append_one _ _ _ _ hx with ⟨hx, hi⟩ | ⟨rfl, rfl⟩
  · rcases getElem?_append_one _ _ _ _ hy with ⟨hy, _⟩ | ⟨hy, _⟩
    · exact hn i x y hx hy
    · omega
  · rcases getElem?_append_one _ _ _ _ hy with ⟨_, hy⟩ | ⟨_, rfl⟩
    · omega
    · exact h

/-- One call with any heights. -/
theorem execR_near {L L1 L2 : Layout φ} {op : LayoutOp φ} (hop : op.Placed64) (h1 : op.exec L = some L1)
    (hs : SameBut L L2) (hp1 : ∀ x ∈ L1.pos, |x| ≤ 262144) :
    ∃ L3, (op.roundR f32Round).execR f32Round L2 = some L3 ∧ SameBut L1 L3 ∧ L2.lines <+: L3.lines ∧
      (LinesNear L L2 → (∀ l ∈ L3.lines, |l.totalDescent| < 131072) → LinesNear L1 L3) := by
  cases op with
  | run font gs ex ey s e rtl =>
    rw [run_round hop h1 hp1 ⟨_, _, _, _, _, _, _, rfl⟩]
    simp only [LayoutOp.exec, Option.some.injEq] at h1
    subst h1
    refine ⟨_, rfl, ?_, ?_, ?_⟩
    · rw [foldl_glyphs, foldl_glyphs]
      refine ⟨?_, ?_, ?_, ?_, hs.lines⟩ <;>
        simp [Layout.appendGlyphPosition, Layout.appendRun, hs.runs, hs.glyphs, hs.charIdx, hs.pos]
    · rw [foldl_glyphs]; exact List.prefix_refl _
    · rw [foldl_glyphs, foldl_glyphs]; exact fun h _ => h
  | line hh a =>
    simp only [LayoutOp.exec] at h1
    unfold Layout.appendLine at h1
    split at h1
    · cases h1
    · rename_i r hr
      split at h1
      · cases h1
      · rename_i w hw
        simp only [Option.some.injEq] at h1
        subst h1
        rw [hs.runs] at hr
        rw [hs.runs, hs.pos] at hw
        refine ⟨{ L2 with lines := L2.lines ++ [⟨L2.runs.length, w, a, L2.nextDescentR f32Round (f32Round hh)⟩] },
          ?_, ?_, by simp, ?_⟩
        · simp only [LayoutOp.roundR, LayoutOp.execR, Layout.appendLineR, hr, hw]
        · have := sameBut_push hs L2.runs.length w a (L.nextDescent hh) (L2.nextDescentR f32Round (f32Round hh)) [] []
          simpa [hs.runs] using this
        · intro hn hb
          refine near_append hs.lines_length hn rfl rfl ?_
          exact near_push hs hn (fun l hl => hb l (List.mem_append_left _ hl))
            (hb ⟨L2.runs.length, w, a, L2.nextDescentR f32Round (f32Round hh)⟩ (by simp))
  | emptyLine font c hh a =>
    simp only [LayoutOp.exec, Option.some.injEq] at h1
    subst h1
    refine ⟨L2.appendEmptyLineR f32Round font c (f32Round hh) a, rfl, ?_, by simp [Layout.appendEmptyLineR], ?_⟩
    · have hg : L.lastGlyphEnd = L2.lastGlyphEnd := by unfold Layout.lastGlyphEnd; rw [hs.runs]
      have := sameBut_push hs (L2.runs.length + 1) 0 a (L.nextDescent hh) (L2.nextDescentR f32Round (f32Round hh)) [0, 0]
        [⟨font, L2.lastGlyphEnd, c, c, 0, false⟩]
      unfold Layout.appendEmptyLine Layout.appendEmptyLineR
      rw [hg, hs.runs]
      rw [hs.runs] at this
      exact this
    · intro hn hb
      refine near_append hs.lines_length hn rfl rfl ?_
      exact near_push hs hn (fun l hl => hb l (List.mem_append_left _ hl))
        (hb ⟨L2.runs.length + 1, 0, a, L2.nextDescentR f32Round (f32Round hh)⟩ (by simp [Layout.appendEmptyLineR]))
  | setOffset i o =>
    simp only [LayoutOp.exec] at h1
    unfold Layout.setRunCharEndOffset at h1
    split at h1
    · cases h1
    · rename_i r hr
      simp only [Option.some.injEq] at h1
      subst h1
      rw [hs.runs] at hr
      refine ⟨{ L2 with runs := L2.runs.set i { r with charEndOffset := o } }, ?_, ?_, List.prefix_refl _, fun h _ => h⟩
      · simp only [LayoutOp.roundR, LayoutOp.execR, LayoutOp.exec, Layout.setRunCharEndOffset, hr]
      · exact ⟨by simp [hs.runs], hs.glyphs, hs.charIdx, hs.pos, hs.lines⟩
  | startY y => exact absurd hop id
  | clear => exact absurd hop id

/-- Everything but the vertical positions is exact, and these are near. -/
theorem execLayoutR_near {ops : List (LayoutOp φ)} : ∀ {L L' L2 : Layout φ}, (∀ op ∈ ops, op.Placed64) →
    execLayout L ops = some L' → SameBut L L2 → (∀ x ∈ L'.pos, |x| ≤ 262144) →
    ∃ L3, execLayoutR f32Round L2 (ops.map (·.roundR f32Round)) = some L3 ∧ SameBut L' L3 ∧ L2.lines <+: L3.lines ∧
      (LinesNear L L2 → (∀ l ∈ L3.lines, |l.totalDescent| < 131072) → LinesNear L' L3) := by
  induction ops with
  | nil =>
    intro L L' L2 _ h hs _
    cases h
    exact ⟨L2, rfl, hs, List.prefix_refl _, fun h _ => h⟩
  | cons op ops ih =>
    intro L L' L2 ho h hs hp
    unfold execLayout at h
    split at h
    · cases h
    · rename_i L1 h1
      have hrest := fun o h => ho o (List.mem_cons_of_mem op h)
      have hpre := execLayout_prefix hrest h
      obtain ⟨L3, a1, a2, a3, a4⟩ := execR_near (ho op (List.mem_cons_self ..)) h1 hs (fun x hx => hp x (hpre.1.subset hx))
      obtain ⟨L4, b1, b2, b3, b4⟩ := ih hrest h a2 hp
      refine ⟨L4, ?_, b2, a3.trans b3, fun hn hb => b4 (a4 hn fun l hl => hb l (b3.subset hl)) hb⟩
      simp only [List.map_cons, execLayoutR, a1]
      exact b1

end RichText
