import Verif.Proof.Layout
import Verif.Proof.BinarySearch
import Mathlib.Algebra.Order.Field.Basic
import Mathlib.Tactic.FieldSimp
/-! `get_glyph_offset_ltr` and `get_glyph_offset_rtl` as piecewise linear functions. -/
namespace RichText
variable {φ : Type _}

theorem u32_sub {a b : Nat} (h : b ≤ a) (ha : a < 4294967296) : u32 ((a : Int) - b) = a - b := by
  unfold u32
  rw [Int.emod_eq_of_lt (by omega) (by omega)]
  omega

theorem u32_of {a : Int} (h : 0 ≤ a) (ha : a < 4294967296) : u32 a = a.toNat := by
  unfold u32
  rw [Int.emod_eq_of_lt h ha]

/-- Linear interpolation in segment `j` (the one that ends at `c j`). -/
def interp (c : Nat → Nat) (x : Nat → Rat) (j q : Nat) : Rat :=
  if j = 0 then x 0
  else x (j - 1) + (x j - x (j - 1)) * (((q : Rat) - c (j - 1)) / ((c j : Rat) - c (j - 1)))

/-- `v` is the interpolated value at `q`. -/
def IsOffset (c : Nat → Nat) (x : Nat → Rat) (n q : Nat) (v : Rat) : Prop :=
  ∃ j, j ≤ n ∧ q ≤ c j ∧ (∀ i, i < j → c i < q) ∧ v = interp c x j q

theorem IsOffset.neg {c : Nat → Nat} {x : Nat → Rat} {n q : Nat} {v : Rat} (h : IsOffset c x n q v) :
    IsOffset c (fun i => - x i) n q (- v) := by
  obtain ⟨j, h1, h2, h3, rfl⟩ := h
  refine ⟨j, h1, h2, h3, ?_⟩
  unfold interp
  split
  · rfl
  · ring

theorem mono_of_step {x : Nat → Rat} {n : Nat} (hx : ∀ i, i < n → x i ≤ x (i + 1)) {i j : Nat} (hij : i ≤ j)
    (hj : j ≤ n) : x i ≤ x j := by
  induction j with
  | zero => have : i = 0 := by omega
            subst this; exact le_refl _
  | succ j ih =>
    by_cases h : i = j + 1
    · subst h; exact le_refl _
    · exact le_trans (ih (by omega) (by omega)) (hx j (by omega))

theorem interp_bounds {c : Nat → Nat} {x : Nat → Rat} {n j q : Nat} (hx : ∀ i, i < n → x i ≤ x (i + 1))
    (hj : j ≤ n) (h1 : q ≤ c j) (h2 : ∀ i, i < j → c i < q) :
    x (j - 1) ≤ interp c x j q ∧ interp c x j q ≤ x j := by
  unfold interp
  split
  · rename_i h0; subst h0; exact ⟨le_refl _, le_refl _⟩
  · have h3 := h2 (j - 1) (by omega)
    have h4 : x (j - 1) ≤ x j := mono_of_step hx (by omega) hj
    have h5 : (0 : Rat) < (c j : Rat) - c (j - 1) := by
      have : (c (j - 1) : Rat) < c j := by exact_mod_cast (by omega : c (j - 1) < c j)
      linarith
    have h6 : (0 : Rat) ≤ (q : Rat) - c (j - 1) := by
      have : (c (j - 1) : Rat) < q := by exact_mod_cast h3
      linarith
    have h7 : (q : Rat) - c (j - 1) ≤ (c j : Rat) - c (j - 1) := by
      have : (q : Rat) ≤ c j := by exact_mod_cast h1
      linarith
    have h8 : 0 ≤ ((q : Rat) - c (j - 1)) / ((c j : Rat) - c (j - 1)) := div_nonneg h6 (le_of_lt h5)
    have h9 : ((q : Rat) - c (j - 1)) / ((c j : Rat) - c (j - 1)) ≤ 1 := (div_le_one h5).2 h7
    have h10 : 0 ≤ x j - x (j - 1) := by linarith
    constructor
    · have := mul_nonneg h10 h8
      linarith
    · have := mul_le_mul_of_nonneg_left h9 h10
      linarith

/-- monotone -/
theorem IsOffset.mono {c : Nat → Nat} {x : Nat → Rat} {n q q' : Nat} {v v' : Rat}
    (hx : ∀ i, i < n → x i ≤ x (i + 1)) (h : IsOffset c x n q v) (h' : IsOffset c x n q' v') (hq : q ≤ q') :
    v ≤ v' := by
  obtain ⟨j, a1, a2, a3, rfl⟩ := h
  obtain ⟨k, b1, b2, b3, rfl⟩ := h'
  have hjk : j ≤ k := by
    by_contra hc
    have := a3 k (by omega)
    omega
  by_cases e : j = k
  · subst e
    unfold interp
    split
    · exact le_refl _
    · have h3 := a3 (j - 1) (by omega)
      have h4 : x (j - 1) ≤ x j := mono_of_step hx (by omega) a1
      have h5 : (0 : Rat) < (c j : Rat) - c (j - 1) := by
        have : (c (j - 1) : Rat) < c j := by exact_mod_cast (by omega : c (j - 1) < c j)
        linarith
      have h6 : (q : Rat) - c (j - 1) ≤ (q' : Rat) - c (j - 1) := by
        have : (q : Rat) ≤ q' := by exact_mod_cast hq
        linarith
      have h7 := (div_le_div_iff_of_pos_right h5).2 h6
      have h10 : 0 ≤ x j - x (j - 1) := by linarith
      have := mul_le_mul_of_nonneg_left h7 h10
      linarith
  · have e1 := (interp_bounds hx a1 a2 a3).2
    have e2 := (interp_bounds hx b1 b2 b3).1
    have e3 : x j ≤ x (k - 1) := mono_of_step hx (by omega) (by omega)
    linarith

theorem IsOffset.bounds {c : Nat → Nat} {x : Nat → Rat} {n q : Nat} {v : Rat}
    (hx : ∀ i, i < n → x i ≤ x (i + 1)) (h : IsOffset c x n q v) : x 0 ≤ v ∧ v ≤ x n := by
  obtain ⟨j, a1, a2, a3, rfl⟩ := h
  have e := interp_bounds hx a1 a2 a3
  have e1 : x 0 ≤ x (j - 1) := mono_of_step hx (by omega) (by omega)
  have e2 : x j ≤ x n := mono_of_step hx a1 (Nat.le_refl _)
  exact ⟨by linarith, by linarith⟩

/-- The segment of `q` is unique. -/
theorem IsOffset.at {c : Nat → Nat} {x : Nat → Rat} {n q : Nat} {v : Rat} (h : IsOffset c x n q v) {j : Nat}
    (h2 : q ≤ c j) (h3 : ∀ i, i < j → c i < q) : v = interp c x j q := by
  obtain ⟨k, _, b2, b3, rfl⟩ := h
  have : j = k := by
    rcases Nat.lt_trichotomy j k with e | e | e
    · have := b3 j e; omega
    · exact e
    · have := h3 k e; omega
  rw [this]

/-- exact at a position that occurs -/
theorem interp_exact {c : Nat → Nat} {x : Nat → Rat} {j : Nat} (h : 0 < j → c (j - 1) < c j) :
    interp c x j (c j) = x j := by
  unfold interp
  split
  · rename_i h0; subst h0; rfl
  · rename_i h0
    have h1 := h (by omega)
    have h5 : (c j : Rat) - c (j - 1) ≠ 0 := by
      have : (c (j - 1) : Rat) < c j := by exact_mod_cast h1
      have : (0 : Rat) < (c j : Rat) - c (j - 1) := by linarith
      exact ne_of_gt this
    rw [div_self h5]
    ring

/-! ### The runs -/

/-- A left-to-right run as the layout builder makes it. -/
structure LtrRun (r : RunSpec φ) : Prop where
  /-- direction -/
  ltr : r.rtl = false
  /-- characters in order -/
  sorted : ∀ (i : Nat) (g h : GlyphSpec), r.glyphs[i]? = some g → r.glyphs[i + 1]? = some h → g.char ≤ h.char
  /-- the first glyph is that of the first character -/
  first : ∀ g, r.glyphs[0]? = some g → g.char = r.charStart
  /-- no glyphs, no characters -/
  empty : r.glyphs = [] → r.charStart = r.charEnd
  /-- glyphs are of the run's characters -/
  below : ∀ g ∈ r.glyphs, g.char < r.charEnd
  /-- positions in order -/
  mono : ∀ (i : Nat) (a b : Rat), r.xs[i]? = some a → r.xs[i + 1]? = some b → a ≤ b

/-- A right-to-left run: glyphs in visual order, so the characters descend. -/
structure RtlRun (r : RunSpec φ) : Prop where
  /-- direction -/
  rtl : r.rtl = true
  /-- characters in reverse order -/
  sorted : ∀ (i : Nat) (g h : GlyphSpec), r.glyphs[i]? = some g → r.glyphs[i + 1]? = some h → h.char ≤ g.char
  /-- the last glyph is that of the first character -/
  last : ∀ g, r.glyphs.getLast? = some g → g.char = r.charStart
  /-- no glyphs, no characters -/
  empty : r.glyphs = [] → r.charStart = r.charEnd
  /-- glyphs are of the run's characters -/
  below : ∀ g ∈ r.glyphs, g.char < r.charEnd
  /-- positions in order -/
  mono : ∀ (i : Nat) (a b : Rat), r.xs[i]? = some a → r.xs[i + 1]? = some b → a ≤ b

/-- Character of glyph `i`, or the run's end. -/
def RunSpec.charAt (r : RunSpec φ) (i : Nat) : Nat := ((r.glyphs[i]?).map (·.char)).getD r.charEnd

/-- Position `i`. -/
def RunSpec.xAt (r : RunSpec φ) (i : Nat) : Rat := (r.xs[i]?).getD 0

/-- Characters of a right-to-left run in logical order, then the run's end. -/
def RunSpec.charBack (r : RunSpec φ) (i : Nat) : Nat :=
  if i < r.glyphs.length then r.charAt (r.glyphs.length - 1 - i) else r.charEnd

/-- Positions from the right. -/
def RunSpec.xBack (r : RunSpec φ) (i : Nat) : Rat := r.xAt (r.glyphs.length - i)

theorem xs_length (r : RunSpec φ) : r.xs.length = r.glyphs.length + 1 := by simp [RunSpec.xs]

theorem xs_get (r : RunSpec φ) {i : Nat} (h : i ≤ r.glyphs.length) : r.xs[i]? = some (r.xAt i) := by
  unfold RunSpec.xAt
  rw [List.getElem?_eq_getElem (by rw [xs_length]; omega)]
  rfl

theorem charAt_get (r : RunSpec φ) {i : Nat} (h : i < r.glyphs.length) :
    (r.glyphs[i]?).map (·.char) = some (r.charAt i) := by
  unfold RunSpec.charAt
  rw [List.getElem?_eq_getElem h]
  rfl

theorem xAt_step {r : RunSpec φ}
    (hm : ∀ (i : Nat) (a b : Rat), r.xs[i]? = some a → r.xs[i + 1]? = some b → a ≤ b) {i : Nat}
    (h : i < r.glyphs.length) : r.xAt i ≤ r.xAt (i + 1) :=
  hm i _ _ (xs_get r (by omega)) (xs_get r (by omega))

theorem charAt_sorted {r : RunSpec φ} (hr : LtrRun r) {i j : Nat} (hij : i ≤ j) (hj : j < r.glyphs.length) :
    r.charAt i ≤ r.charAt j := by
  induction j with
  | zero => have : i = 0 := by omega
            subst this; exact Nat.le_refl _
  | succ j ih =>
    by_cases h : i = j + 1
    · subst h; exact Nat.le_refl _
    · refine Nat.le_trans (ih (by omega) (by omega)) ?_
      have e1 := List.getElem?_eq_getElem (show j < r.glyphs.length by omega)
      have e2 := List.getElem?_eq_getElem hj
      have := hr.sorted j _ _ e1 e2
      unfold RunSpec.charAt
      rw [e1, e2]
      exact this

theorem charAt_anti {r : RunSpec φ} (hr : RtlRun r) {i j : Nat} (hij : i ≤ j) (hj : j < r.glyphs.length) :
    r.charAt j ≤ r.charAt i := by
  induction j with
  | zero => have : i = 0 := by omega
            subst this; exact Nat.le_refl _
  | succ j ih =>
    by_cases h : i = j + 1
    · subst h; exact Nat.le_refl _
    · refine Nat.le_trans ?_ (ih (by omega) (by omega))
      have e1 := List.getElem?_eq_getElem (show j < r.glyphs.length by omega)
      have e2 := List.getElem?_eq_getElem hj
      have := hr.sorted j _ _ e1 e2
      unfold RunSpec.charAt
      rw [e1, e2]
      exact this

theorem charAt_below {r : RunSpec φ} (hb : ∀ g ∈ r.glyphs, g.char < r.charEnd) {i : Nat}
    (hi : i < r.glyphs.length) : r.charAt i < r.charEnd := by
  unfold RunSpec.charAt
  rw [List.getElem?_eq_getElem hi]
  exact hb _ (List.getElem_mem hi)

theorem charAt_end (r : RunSpec φ) {i : Nat} (h : r.glyphs.length ≤ i) : r.charAt i = r.charEnd := by
  unfold RunSpec.charAt
  rw [List.getElem?_eq_none h]
  rfl

/-- What the queries of a run read. -/
theorem Stores.read {L : Layout φ} {ls : List (LineSpec φ)} {rs : List (RunSpec φ)} {y : Rat}
    (h : Stores L ls rs y) {k : Nat} {r : RunSpec φ} (hk : (allRuns ls ++ rs)[k]? = some r) :
    ∃ f, L.firstGlyphIndex k = some f ∧ L.firstPositionIndex k = some (2 * (f + k)) ∧
      L.runs[k]? = some (⟨r.font, f + r.glyphs.length, r.charStart, r.charEnd, r.charEndOffset, r.rtl⟩ : VisualRun φ) ∧
      (∀ j, j < r.glyphs.length → L.charIdx[f + j]? = some (r.charAt j)) ∧
      (∀ j, j ≤ r.glyphs.length → L.pos[2 * (f + k) + 2 * j]? = some (r.xAt j)) ∧
      2 * (f + k) + 2 * r.glyphs.length + 1 < L.pos.length := by
  refine ⟨_, h.firstGlyph hk, h.firstPos hk, ?_, ?_, ?_, ?_⟩
  · rw [h.runs k r hk, glyphCount_take_succ hk]
  · intro j hj
    rw [h.charIdx, glyphs_get (fun g => g.char) hk j hj, charAt_get r hj]
  · intro j hj
    rw [h.pos]
    have := (posOf_get hk j hj).1
    rw [show ((allRuns ls ++ rs).flatMap fun r => r.glyphs.flatMap (fun g => [g.x, g.y]) ++ [r.endX, r.endY]) =
      posOf (allRuns ls ++ rs) from rfl, this, xs_get r hj]
  · rw [h.pos_length]
    have h1 := glyphCount_take_le (allRuns ls ++ rs) (k + 1)
    rw [glyphCount_take_succ hk] at h1
    have h2 : k < (allRuns ls ++ rs).length := by
      rcases Nat.lt_or_ge k (allRuns ls ++ rs).length with h1 | h1
      · exact h1
      · rw [List.getElem?_eq_none h1] at hk; cases hk
    omega

theorem glyphOffsetLtr_spec {L : Layout φ} {ls : List (LineSpec φ)} {rs : List (RunSpec φ)} {y : Rat}
    (h : Stores L ls rs y) (hsize : L.pos.length < 4294967296) {k : Nat} {r : RunSpec φ}
    (hk : (allRuns ls ++ rs)[k]? = some r) (hr : LtrRun r) (hend : r.charEnd < 4294967296) {q : Nat}
    (h1 : r.charStart ≤ q) (h2 : q ≤ r.charEnd) :
    ∃ v, L.glyphOffsetLtr k q = some v ∧ IsOffset r.charAt r.xAt r.glyphs.length q v := by
  obtain ⟨f, e1, e2, e3, e4, e5, e6⟩ := h.read hk
  obtain ⟨g, b1, b2, b3, b4, b5⟩ := binarySearch_spec
    (fun i => (L.charIdx[i]?).map fun c => decide (c < q)) (fun i => decide (r.charAt (i - f) < q))
    r.glyphs.length f
    (by
      intro i hi hi2
      have := e4 (i - f) (by omega)
      rw [show f + (i - f) = i by omega] at this
      simp only [this, Option.map_some])
    (by
      intro i j hi hij hj hp
      simp only [decide_eq_true_eq] at hp ⊢
      exact Nat.lt_of_le_of_lt (charAt_sorted hr (by omega) (by omega)) hp)
  obtain ⟨j, rfl⟩ : ∃ j, g = f + j := ⟨g - f, by omega⟩
  have hj : j ≤ r.glyphs.length := by omega
  have hlt : ∀ i, i < j → r.charAt i < q := by
    intro i hi
    have := b4 (f + i) (by omega) (by omega)
    simpa using this
  have hge : q ≤ r.charAt j := by
    by_cases hjn : j = r.glyphs.length
    · rw [charAt_end r (by omega)]; exact h2
    · have := b5 (f + j) (Nat.le_refl _) (by omega)
      simpa using this
  have hnext : L.ltrNextChar ⟨r.font, f + r.glyphs.length, r.charStart, r.charEnd, r.charEndOffset, r.rtl⟩ (f + j) =
      some (r.charAt j) := by
    unfold Layout.ltrNextChar
    simp only
    split
    · rw [charAt_end r (by omega)]
    · exact e4 j (by omega)
  have hle : r.charAt j ≤ r.charEnd := by
    by_cases hjn : j = r.glyphs.length
    · rw [charAt_end r (by omega)]
    · exact Nat.le_of_lt (charAt_below hr.below (by omega))
  have hu0 : u32 (((f + r.glyphs.length : Nat) : Int) - f) = r.glyphs.length := by
    rw [u32_sub (by omega) (by omega)]; omega
  have hu1 : u32 (((r.charAt j : Nat) : Int) - q) = r.charAt j - q := u32_sub hge (by omega)
  have hu2 : u32 (((2 * (f + k) : Nat) : Int) + 2 * (((f + j : Nat) : Int) - f)) = 2 * (f + k) + 2 * j := by
    rw [u32_of (by omega) (by omega)]; omega
  unfold Layout.glyphOffsetLtr
  simp only [e1, e2, e3, Option.bind_eq_bind, Option.bind_some, hu0, b1, hnext, hu1, hu2, e5 j hj]
  have hseg : IsOffset r.charAt r.xAt r.glyphs.length q (interp r.charAt r.xAt j q) := ⟨j, hj, hge, hlt, rfl⟩
  by_cases hc : r.charAt j - q > 0 ∧ f + j > 0
  · have hj0 : j ≠ 0 := by
      rintro rfl
      by_cases hn : r.glyphs.length = 0
      · have := hr.empty (List.length_eq_zero_iff.1 hn)
        rw [charAt_end r (by omega)] at hc
        omega
      · have hg := List.getElem?_eq_getElem (show 0 < r.glyphs.length by omega)
        have := hr.first _ hg
        have e : r.charAt 0 = r.charStart := by
          unfold RunSpec.charAt
          rw [hg]; exact this
        omega
    rw [if_pos hc]
    have hp := e4 (j - 1) (by omega)
    rw [show f + (j - 1) = f + j - 1 by omega] at hp
    have hl1 := hlt (j - 1) (by omega)
    have hu3 : u32 (((r.charAt j : Nat) : Int) - r.charAt (j - 1)) = r.charAt j - r.charAt (j - 1) :=
      u32_sub (by omega) (by omega)
    have hu4 : u32 (((2 * (f + k) : Nat) : Int) + 2 * (((f + j : Nat) : Int) - f - 1)) = 2 * (f + k) + 2 * (j - 1) := by
      rw [u32_of (by omega) (by omega)]; omega
    have hu5 : u32 (((r.charAt j - r.charAt (j - 1) : Nat) : Int) - ((r.charAt j - q : Nat) : Int)) =
        q - r.charAt (j - 1) := by
      rw [u32_sub (by omega) (by omega)]; omega
    simp only [hp, Option.bind_some, hu3, hu4, hu5, e5 (j - 1) (by omega)]
    refine ⟨_, rfl, ?_⟩
    convert hseg using 1
    unfold interp
    rw [if_neg hj0, Nat.cast_sub (by omega), Nat.cast_sub (by omega)]
  · rw [if_neg hc]
    refine ⟨_, rfl, ?_⟩
    convert hseg using 1
    by_cases hj0 : j = 0
    · subst hj0; rfl
    · have hq : q = r.charAt j := by omega
      rw [hq, interp_exact]
      intro _
      rw [← hq]
      exact hlt _ (by omega)

theorem glyphOffsetRtl_spec {L : Layout φ} {ls : List (LineSpec φ)} {rs : List (RunSpec φ)} {y : Rat}
    (h : Stores L ls rs y) (hsize : L.pos.length < 4294967296) {k : Nat} {r : RunSpec φ}
    (hk : (allRuns ls ++ rs)[k]? = some r) (hr : RtlRun r) (hend : r.charEnd < 4294967296) {q : Nat}
    (h1 : r.charStart ≤ q) (h2 : q ≤ r.charEnd) :
    ∃ v, L.glyphOffsetRtl k q = some v ∧ IsOffset r.charBack r.xBack r.glyphs.length q v := by
  obtain ⟨f, e1, e2, e3, e4, e5, e6⟩ := h.read hk
  obtain ⟨g, b1, b2, b3, b4, b5⟩ := binarySearch_spec
    (fun i => (L.charIdx[i]?).map fun c => decide (c ≥ q)) (fun i => decide (r.charAt (i - f) ≥ q))
    r.glyphs.length f
    (by
      intro i hi hi2
      have := e4 (i - f) (by omega)
      rw [show f + (i - f) = i by omega] at this
      simp only [this, Option.map_some])
    (by
      intro i j hi hij hj hp
      simp only [decide_eq_true_eq] at hp ⊢
      exact Nat.le_trans hp (charAt_anti hr (by omega) (by omega)))
  obtain ⟨j, rfl⟩ : ∃ j, g = f + j := ⟨g - f, by omega⟩
  have hj : j ≤ r.glyphs.length := by omega
  have hge : ∀ i, i < j → q ≤ r.charAt i := by
    intro i hi
    have := b4 (f + i) (by omega) (by omega)
    simpa using this
  have hlt : ∀ i, j ≤ i → i < r.glyphs.length → r.charAt i < q := by
    intro i hi hi2
    have := b5 (f + i) (by omega) (by omega)
    simpa using this
  have hnext : L.rtlNextChar ⟨r.font, f + r.glyphs.length, r.charStart, r.charEnd, r.charEndOffset, r.rtl⟩ f (f + j) =
      some (r.charBack (r.glyphs.length - j)) := by
    unfold RunSpec.charBack Layout.rtlNextChar
    simp only
    by_cases h0 : j = 0
    · rw [if_pos (by omega), if_neg (by omega)]
    · rw [if_neg (by omega), if_pos (by omega), show f + j - 1 = f + (j - 1) by omega, e4 (j - 1) (by omega)]
      congr 2
      omega
  have hback : ∀ i, i < r.glyphs.length - j → r.charBack i < q := by
    intro i hi
    unfold RunSpec.charBack
    rw [if_pos (by omega)]
    exact hlt _ (by omega) (by omega)
  have hqn : q ≤ r.charBack (r.glyphs.length - j) := by
    unfold RunSpec.charBack
    by_cases h0 : j = 0
    · rw [if_neg (by omega)]; exact h2
    · rw [if_pos (by omega)]
      exact hge _ (by omega)
  have hle : r.charBack (r.glyphs.length - j) ≤ r.charEnd := by
    unfold RunSpec.charBack
    split
    · exact Nat.le_of_lt (charAt_below hr.below (by omega))
    · exact Nat.le_refl _
  have hu0 : u32 (((f + r.glyphs.length : Nat) : Int) - f) = r.glyphs.length := by
    rw [u32_sub (by omega) (by omega)]; omega
  have hu1 : u32 (((r.charBack (r.glyphs.length - j) : Nat) : Int) - q) = r.charBack (r.glyphs.length - j) - q :=
    u32_sub hqn (by omega)
  have hu2 : u32 (((2 * (f + k) : Nat) : Int) + 2 * (((f + j : Nat) : Int) - f)) = 2 * (f + k) + 2 * j := by
    rw [u32_of (by omega) (by omega)]; omega
  have hxb : r.xBack (r.glyphs.length - j) = r.xAt j := by
    unfold RunSpec.xBack
    congr 1
    omega
  unfold Layout.glyphOffsetRtl
  simp only [e1, e2, e3, Option.bind_eq_bind, Option.bind_some, hu0, b1, hnext, hu1, hu2, e5 j hj]
  have hseg : IsOffset r.charBack r.xBack r.glyphs.length q (interp r.charBack r.xBack (r.glyphs.length - j) q) :=
    ⟨r.glyphs.length - j, by omega, hqn, hback, rfl⟩
  by_cases hc : r.charBack (r.glyphs.length - j) - q > 0 ∧ f + j < f + r.glyphs.length
  · rw [if_pos hc]
    have hp := e4 j (by omega)
    have hl1 := hlt j (Nat.le_refl _) (by omega)
    have hpb : r.charBack (r.glyphs.length - j - 1) = r.charAt j := by
      unfold RunSpec.charBack
      rw [if_pos (by omega)]
      congr 1
      omega
    have hu3 : u32 (((r.charBack (r.glyphs.length - j) : Nat) : Int) - r.charAt j) =
        r.charBack (r.glyphs.length - j) - r.charAt j :=
      u32_sub (by omega) (by omega)
    have hu4 : u32 (((2 * (f + k) : Nat) : Int) + 2 * (((f + j : Nat) : Int) - f + 1)) = 2 * (f + k) + 2 * (j + 1) := by
      rw [u32_of (by omega) (by omega)]; omega
    have hu5 : u32 (((r.charBack (r.glyphs.length - j) - r.charAt j : Nat) : Int) -
        ((r.charBack (r.glyphs.length - j) - q : Nat) : Int)) = q - r.charAt j := by
      rw [u32_sub (by omega) (by omega)]; omega
    simp only [hp, Option.bind_some, hu3, hu4, hu5, e5 (j + 1) (by omega)]
    refine ⟨_, rfl, ?_⟩
    convert hseg using 1
    unfold interp
    have hx1 : r.xBack (r.glyphs.length - j - 1) = r.xAt (j + 1) := by
      unfold RunSpec.xBack
      congr 1
      omega
    rw [if_neg (by omega), Nat.cast_sub (by omega), Nat.cast_sub (by omega), hpb, hxb, hx1]
  · rw [if_neg hc]
    refine ⟨_, rfl, ?_⟩
    convert hseg using 1
    by_cases hj0 : r.glyphs.length - j = 0
    · unfold interp
      rw [if_pos hj0, ← hxb, hj0]
    · have hq : q = r.charBack (r.glyphs.length - j) := by omega
      rw [hq, interp_exact, hxb]
      intro _
      rw [← hq]
      exact hback _ (by omega)

end RichText
