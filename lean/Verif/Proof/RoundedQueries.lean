import Verif.Proof.RoundedOffset
import Verif.Props.Offsets
/-! Queries in `float`: lines, offsets, selection ranges and the caret. -/
namespace RichText
variable {φ : Type _}

/-- A multiple of 1/128. -/
def Half (x : Rat) : Prop := ∃ n : Int, x * 128 = n

theorem Fine.half {x : Rat} (h : Fine x) : Half x := by
  obtain ⟨n, hn⟩ := h
  exact ⟨2 * n, by push_cast; rw [← hn]; ring⟩

theorem Half.add {x y : Rat} (hx : Half x) (hy : Half y) : Half (x + y) := by
  obtain ⟨a, ha⟩ := hx
  obtain ⟨b, hb⟩ := hy
  exact ⟨a + b, by push_cast; rw [← ha, ← hb]; ring⟩

theorem Half.round {x : Rat} (h : Half x) (hb : |x| ≤ 131072) : f32Round x = x := by
  obtain ⟨n, hn⟩ := h
  refine f32Round_float (isFloat_frac 7 (by norm_num) n (by rw [← hn]; norm_num) ?_)
  have := mul_le_mul_of_nonneg_right hb (show (0 : Rat) ≤ 2 ^ 7 by norm_num)
  refine this.trans ?_
  norm_num

/-- All numbers in a layout are multiples of 1/64 below 32768 (the start of the
text: of 1/128). -/
structure CrispLayout (L : Layout φ) : Prop where
  /-- positions of glyphs -/
  pos : ∀ x ∈ L.pos, Crisp x
  /-- lines -/
  lines : ∀ l ∈ L.lines, Crisp l.width ∧ Crisp l.ascent ∧ Crisp l.totalDescent
  /-- start of the text -/
  startY : Half L.startY
  /-- start of the text -/
  startYLe : |L.startY| ≤ 32768

/-! ### Lines -/

theorem alignedX_half {W w : Rat} (hW : Crisp W) (hw : Crisp w) (a : XAlignment) :
    Half (alignedX W w a) ∧ |alignedX W w a| ≤ 65536 := by
  have hs := hW.sub_le hw
  cases a
  · exact ⟨⟨0, by simp [alignedX]⟩, by norm_num [alignedX]⟩
  · exact ⟨(hW.1.sub hw.1).half, hs⟩
  · refine ⟨?_, ?_⟩
    · obtain ⟨n, hn⟩ := hW.1.sub hw.1
      exact ⟨n, by rw [← hn]; simp only [alignedX]; ring⟩
    · simp only [alignedX]
      rw [abs_le] at hs ⊢
      constructor <;> linarith

theorem lineXStartR_eq {L : Layout φ} (h : CrispLayout L) {W : Rat} (hW : Crisp W) (i : Nat) (a : XAlignment) :
    L.lineXStartR f32Round i W a = L.lineXStart i W a ∧
      ∀ x, L.lineXStart i W a = some x → Half x ∧ |x| ≤ 65536 := by
  unfold Layout.lineXStartR Layout.lineXStart
  cases hl : L.lines[i]? with
  | none => exact ⟨rfl, by simp⟩
  | some l =>
    have hw := (h.lines l (List.mem_of_getElem? hl)).1
    have hs := hW.sub_round hw
    have hh := alignedX_half hW hw a
    cases a
    · exact ⟨rfl, by intro x hx; cases hx; exact hh⟩
    · simp only [hs]
      exact ⟨trivial, by intro x hx; cases hx; exact hh⟩
    · simp only [hs]
      simp only [alignedX] at hh
      rw [show (1 / 2 : Rat) * (W - l.width) = (W - l.width) / 2 by ring]
      refine ⟨?_, by intro x hx; cases hx; exact hh⟩
      rw [hh.1.round (by linarith [hh.2])]

theorem lineHeightR_eq {L : Layout φ} (h : CrispLayout L) (i : Nat) :
    L.lineHeightR f32Round i = L.lineHeight i := by
  unfold Layout.lineHeightR Layout.lineHeight
  split
  · rfl
  · cases ha : L.lines[i]? with
    | none => rfl
    | some a =>
      cases hb : L.lines[i - 1]? with
      | none => rfl
      | some b =>
        simp only
        rw [(h.lines a (List.mem_of_getElem? ha)).2.2.sub_round (h.lines b (List.mem_of_getElem? hb)).2.2]

/-- The top of line `i`, from the start of the text. -/
def Layout.topOf (L : Layout φ) (i : Nat) : Rat :=
  if i = 0 then 0 else ((L.lines[i - 1]?).map (·.totalDescent)).getD 0

theorem topOf_crisp {L : Layout φ} (h : CrispLayout L) (i : Nat) : Crisp (L.topOf i) := by
  have h0 : Crisp 0 := ⟨.zero, by norm_num⟩
  unfold Layout.topOf
  split
  · exact h0
  · cases hl : L.lines[i - 1]? with
    | none => exact h0
    | some l => exact (h.lines l (List.mem_of_getElem? hl)).2.2

theorem lineHeight_top {L : Layout φ} {i : Nat} {v : Rat} (h : L.lineHeight i = some v) : L.topOf i + v = L.topOf (i + 1) := by
  unfold Layout.lineHeight at h
  unfold Layout.topOf
  rw [if_neg (Nat.succ_ne_zero i), Nat.add_sub_cancel]
  split at h
  · rename_i h0
    subst h0
    rw [h]
    simp
  · rename_i h0
    rw [if_neg h0]
    split at h
    · rename_i ha hb
      cases h
      rw [ha, hb]
      simp
    · cases h

theorem start_crisp {L : Layout φ} (h : CrispLayout L) {x : Rat} (hx : Crisp x) :
    Half (L.startY + x) ∧ |L.startY + x| ≤ 65536 := by
  refine ⟨h.startY.add hx.1.half, ?_⟩
  have h1 := h.startYLe
  have h2 := hx.2
  rw [abs_le] at *
  constructor <;> linarith

theorem forEachLineFromR_eq {L : Layout φ} (h : CrispLayout L) {W : Rat} (hW : Crisp W) (a : XAlignment) :
    ∀ (n i : Nat), L.lines.length - i = n →
      L.forEachLineFromR f32Round W a i (L.startY + L.topOf i) = L.forEachLineFrom W a i (L.startY + L.topOf i) := by
  intro n
  induction n with
  | zero =>
    intro i hn
    rw [Layout.forEachLineFromR, Layout.forEachLineFrom, if_neg (by omega), if_neg (by omega)]
  | succ n ih =>
    intro i hn
    rw [Layout.forEachLineFromR, Layout.forEachLineFrom]
    split
    · rw [(lineXStartR_eq h hW i a).1, lineHeightR_eq h]
      cases L.lineXStart i W a with
      | none => rfl
      | some x =>
        cases hl : L.lines[i]? with
        | none => rfl
        | some l =>
          cases hh : L.lineHeight i with
          | none => rfl
          | some v =>
            simp only
            have e : L.startY + L.topOf i + v = L.startY + L.topOf (i + 1) := by rw [add_assoc, lineHeight_top hh]
            have s1 := start_crisp h (topOf_crisp h (i + 1))
            have s0 := start_crisp h (topOf_crisp h i)
            have hc := (h.lines l (List.mem_of_getElem? hl)).2.1
            have e2 : f32Round (L.startY + L.topOf i + l.ascent) = L.startY + L.topOf i + l.ascent := by
              refine (s0.1.add hc.1.half).round ?_
              have h1 := s0.2
              have h2 := hc.2
              rw [abs_le] at *
              constructor <;> linarith
            rw [e, s1.1.round (s1.2.trans (by norm_num)), ih (i + 1) (by omega), e2]
            cases L.forEachLineFrom W a (i + 1) (L.startY + L.topOf (i + 1)) <;> rfl
    · rfl

/-! ### Offsets -/

theorem xAt_crisp {L : Layout φ} (hc : ∀ x ∈ L.pos, Crisp x) {k : Nat} {r : RunSpec φ} (h : RunAt L k r) {i : Nat}
    (hi : i ≤ r.glyphs.length) : Crisp (r.xAt i) := by
  obtain ⟨ls, rs, y, hs, hk⟩ := h.stored
  refine hc _ ?_
  rw [hs.pos]
  refine List.mem_flatMap.2 ⟨r, List.mem_of_getElem? hk, ?_⟩
  by_cases hn : i < r.glyphs.length
  · have hg := List.getElem?_eq_getElem hn
    rw [xAt_of hg]
    exact List.mem_append_left _ (List.mem_flatMap.2 ⟨_, List.mem_of_getElem? hg, by simp⟩)
  · rw [show i = r.glyphs.length by omega, xAt_end]
    simp

theorem ltr_offsetR {L : Layout φ} (hc : ∀ x ∈ L.pos, Crisp x) {k : Nat} {r : RunSpec φ} (h : RunAt L k r) (hr : LtrRun r)
    {q : Nat} (h1 : r.charStart ≤ q) (h2 : q ≤ r.charEnd) :
    ∃ v, L.glyphOffsetR f32Round k q = some v ∧ IsOffsetR r.charAt r.xAt r.glyphs.length q v := by
  obtain ⟨ls, rs, y, hs, hk⟩ := h.stored
  obtain ⟨v, e1, e2⟩ := glyphOffsetLtrR_spec hs hc h.size hk hr h.chars h1 h2
  refine ⟨v, ?_, e2⟩
  unfold Layout.glyphOffsetR
  rw [hs.runs k r hk]
  simp only [hr.ltr, Bool.false_eq_true, if_false]
  exact e1

theorem rtl_offsetR {L : Layout φ} (hc : ∀ x ∈ L.pos, Crisp x) {k : Nat} {r : RunSpec φ} (h : RunAt L k r) (hr : RtlRun r)
    {q : Nat} (h1 : r.charStart ≤ q) (h2 : q ≤ r.charEnd) :
    ∃ v, L.glyphOffsetR f32Round k q = some v ∧ IsOffsetR r.charBack r.xBack r.glyphs.length q v := by
  obtain ⟨ls, rs, y, hs, hk⟩ := h.stored
  obtain ⟨v, e1, e2⟩ := glyphOffsetRtlR_spec hs hc h.size hk hr h.chars h1 h2
  refine ⟨v, ?_, e2⟩
  unfold Layout.glyphOffsetR
  rw [hs.runs k r hk]
  simp only [hr.rtl, if_true]
  exact e1

theorem charAt_le_end {r : RunSpec φ} (hb : ∀ g ∈ r.glyphs, g.char < r.charEnd) (i : Nat) : r.charAt i ≤ r.charEnd := by
  by_cases hi : i < r.glyphs.length
  · exact Nat.le_of_lt (charAt_below hb hi)
  · rw [charAt_end r (by omega)]

theorem charBack_le_end {r : RunSpec φ} (hb : ∀ g ∈ r.glyphs, g.char < r.charEnd) (i : Nat) : r.charBack i ≤ r.charEnd := by
  unfold RunSpec.charBack
  split
  · exact charAt_le_end hb _
  · exact Nat.le_refl _

/-- A place between clusters: the end of the run, or the first character of a
glyph. -/
def RunSpec.Edge (r : RunSpec φ) (c : Nat) : Prop := c = r.charEnd ∨ ∃ g ∈ r.glyphs, g.char = c

/-- At an edge the value is a stored position. -/
theorem IsOffsetR.edge {c : Nat → Nat} {x : Nat → Rat} {n q : Nat} {v w : Rat} (hc : ∀ i, i ≤ n → Crisp (x i))
    (h : IsOffsetR c x n q v) (h' : IsOffset c x n q w) (hq : ∃ j, j ≤ n ∧ c j = q)
    (hs : ∀ i j, i ≤ j → j ≤ n → c i ≤ c j) : v = w ∧ Crisp v := by
  obtain ⟨j, hj, e⟩ := hq
  obtain ⟨k, a1, a2, a3, rfl⟩ := h
  rw [h'.at a2 a3]
  have hkj : k ≤ j := by
    by_contra hlt
    have := a3 j (by omega)
    omega
  have hkq : c k = q := by
    have := hs k j hkj hj
    omega
  have hstep : 0 < k → c (k - 1) < c k := fun hk => by rw [hkq]; exact a3 _ (by omega)
  subst hkq
  rw [interpR_exact (hc _ (by omega)) (hc _ a1) hstep, interp_exact hstep]
  exact ⟨rfl, hc _ a1⟩

theorem edge_ltr {r : RunSpec φ} {q : Nat} (h : r.Edge q) : ∃ j, j ≤ r.glyphs.length ∧ r.charAt j = q := by
  rcases h with rfl | ⟨g, hg, rfl⟩
  · exact ⟨_, Nat.le_refl _, charAt_end r (Nat.le_refl _)⟩
  · obtain ⟨i, hi, e⟩ := List.mem_iff_getElem.1 hg
    exact ⟨i, by omega, charAt_of (by rw [List.getElem?_eq_getElem hi, e])⟩

theorem edge_rtl {r : RunSpec φ} {q : Nat} (h : r.Edge q) : ∃ j, j ≤ r.glyphs.length ∧ r.charBack j = q := by
  rcases h with rfl | ⟨g, hg, rfl⟩
  · exact ⟨_, Nat.le_refl _, by unfold RunSpec.charBack; simp⟩
  · obtain ⟨i, hi, e⟩ := List.mem_iff_getElem.1 hg
    refine ⟨r.glyphs.length - 1 - i, by omega, ?_⟩
    unfold RunSpec.charBack
    rw [if_pos (by omega), show r.glyphs.length - 1 - (r.glyphs.length - 1 - i) = i by omega]
    exact charAt_of (by rw [List.getElem?_eq_getElem hi, e])

theorem charAt_le {r : RunSpec φ} (hr : LtrRun r) {i j : Nat} (h : i ≤ j) :
    r.charAt i ≤ r.charAt j := by
  by_cases e : j < r.glyphs.length
  · exact charAt_sorted hr h e
  · rw [charAt_end r (show r.glyphs.length ≤ j by omega)]
    exact charAt_le_end hr.below i

theorem charBack_le {r : RunSpec φ} (hr : RtlRun r) {i j : Nat} (h : i ≤ j) :
    r.charBack i ≤ r.charBack j := by
  by_cases e : j < r.glyphs.length
  · unfold RunSpec.charBack
    rw [if_pos e, if_pos (by omega)]
    exact charAt_anti hr (by omega) (by omega)
  · have : r.charBack j = r.charEnd := by unfold RunSpec.charBack; rw [if_neg e]
    rw [this]
    exact charBack_le_end hr.below i

/-! ### Layouts from the builder -/

/-- All numbers in a layout are multiples of 1/64, and line widths are among the
positions. -/
def Layout.Fine64 (L : Layout φ) : Prop :=
  (∀ x ∈ L.pos, Fine x) ∧ ∀ l ∈ L.lines, l.width ∈ L.pos ∧ Fine l.ascent ∧ Fine l.totalDescent

theorem nextDescent_fine {L : Layout φ} (h : L.Fine64) {v : Rat} (hv : Fine v) : Fine (L.nextDescent v) := by
  unfold Layout.nextDescent
  split
  · exact hv
  · rename_i l hl
    exact (h.2 l (List.mem_of_getLast? hl)).2.2.add hv

theorem exec_fine {L L1 : Layout φ} {op : LayoutOp φ} (hop : op.Placed64 ∧ op.Height64) (h : L.Fine64)
    (h1 : op.exec L = some L1) : L1.Fine64 := by
  cases op with
  | run font gs ex ey s e rtl =>
    simp only [LayoutOp.exec, Option.some.injEq] at h1
    subst h1
    rw [foldl_glyphs]
    refine ⟨?_, fun l hl => ⟨?_, (h.2 l hl).2⟩⟩
    swap
    · have := (h.2 l hl).1
      simp [Layout.appendGlyphPosition, Layout.appendRun, this]
    intro x hx
    simp only [Layout.appendGlyphPosition, Layout.appendRun, List.mem_append, List.mem_cons, List.not_mem_nil, or_false,
      List.mem_flatMap] at hx
    rcases hx with (hx | ⟨g, hg, rfl | rfl⟩) | rfl | rfl
    · exact h.1 x hx
    · exact (hop.1.1 g hg).1
    · exact (hop.1.1 g hg).2
    · exact hop.1.2.1
    · exact hop.1.2.2
  | line hh a =>
    simp only [LayoutOp.exec] at h1
    unfold Layout.appendLine at h1
    split at h1
    · cases h1
    · split at h1
      · cases h1
      · rename_i w hw
        simp only [Option.some.injEq] at h1
        subst h1
        refine ⟨h.1, ?_⟩
        intro l hl
        simp only [List.mem_append, List.mem_singleton] at hl
        rcases hl with hl | rfl
        · exact h.2 l hl
        · exact ⟨List.mem_of_getElem? hw, hop.2.2, nextDescent_fine h hop.2.1⟩
  | emptyLine font c hh a =>
    simp only [LayoutOp.exec, Option.some.injEq] at h1
    subst h1
    refine ⟨?_, ?_⟩
    · intro x hx
      simp only [Layout.appendEmptyLine, List.mem_append, List.mem_cons, List.not_mem_nil, or_false] at hx
      rcases hx with hx | rfl | rfl
      · exact h.1 x hx
      · exact .zero
      · exact .zero
    · intro l hl
      simp only [Layout.appendEmptyLine, List.mem_append, List.mem_singleton] at hl
      rcases hl with hl | rfl
      · exact ⟨by simp [Layout.appendEmptyLine, (h.2 l hl).1], (h.2 l hl).2⟩
      · exact ⟨by simp [Layout.appendEmptyLine], hop.2.2, nextDescent_fine h hop.2.1⟩
  | setOffset i o =>
    simp only [LayoutOp.exec] at h1
    unfold Layout.setRunCharEndOffset at h1
    split at h1
    · cases h1
    · cases h1; exact h
  | startY y => exact absurd hop.1 id
  | clear => exact absurd hop.1 id

theorem execLayout_fine {ops : List (LayoutOp φ)} : ∀ {L L' : Layout φ}, (∀ op ∈ ops, op.Placed64 ∧ op.Height64) →
    L.Fine64 → execLayout L ops = some L' → L'.Fine64 := by
  induction ops with
  | nil => intro L L' _ h0 h; cases h; exact h0
  | cons op ops ih =>
    intro L L' ho h0 h
    unfold execLayout at h
    split at h
    · cases h
    · rename_i L1 h1
      exact ih (fun o h => ho o (List.mem_cons_of_mem op h)) (exec_fine (ho op (List.mem_cons_self ..)) h0 h1) h

end RichText
