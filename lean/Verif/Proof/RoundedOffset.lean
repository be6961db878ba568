import Verif.Proof.RoundedLayout
import Verif.Proof.GlyphOffset
/-! Offsets of cursors computed in `float`. -/
namespace RichText
variable {φ : Type _}

/-- A coordinate that is a multiple of 1/64 up to 32768. -/
def Crisp (x : Rat) : Prop := Fine x ∧ |x| ≤ 32768

theorem Crisp.round {x : Rat} (h : Crisp x) : f32Round x = x := h.1.round (h.2.trans (by norm_num))

theorem Crisp.sub_le {x y : Rat} (hx : Crisp x) (hy : Crisp y) : |x - y| ≤ 65536 := by
  have h1 := hx.2
  have h2 := hy.2
  rw [abs_le] at *
  constructor <;> linarith

theorem Crisp.sub_round {x y : Rat} (hx : Crisp x) (hy : Crisp y) : f32Round (x - y) = x - y :=
  (hx.1.sub hy.1).round ((hx.sub_le hy).trans (by norm_num))

theorem f32Round_zero : f32Round 0 = 0 := rfl

theorem f32Round_one : f32Round 1 = 1 := f32Round_float ⟨1, 0, by norm_num, by norm_num, by norm_num⟩

/-- Small integers are floats. -/
theorem f32Round_nat {n : Nat} (h : n ≤ 16777216) : f32Round (n : Rat) = n := by
  refine f32Round_float ⟨n, 0, ?_, by norm_num, by simp⟩
  rw [abs_of_nonneg (by positivity)]
  exact_mod_cast h

theorem f32Round_nonneg {x : Rat} (h : 0 ≤ x) : 0 ≤ f32Round x := by
  have := f32Round_mono h
  rwa [f32Round_zero] at this

theorem f32Round_pos_nat {n : Nat} (h : 0 < n) : 1 ≤ f32Round (n : Rat) := by
  have := f32Round_mono (show (1 : Rat) ≤ n by exact_mod_cast h)
  rwa [f32Round_one] at this

/-! ### The factor -/

/-- `float(part) / float(count)`. -/
def ratioR (part count : Nat) : Rat := f32Round (f32Round (part : Rat) / f32Round (count : Rat))

theorem ratioR_nonneg (p c : Nat) : 0 ≤ ratioR p c :=
  f32Round_nonneg (div_nonneg (f32Round_nonneg (by positivity)) (f32Round_nonneg (by positivity)))

theorem ratioR_mono {p q : Nat} (h : p ≤ q) (c : Nat) : ratioR p c ≤ ratioR q c := by
  refine f32Round_mono ?_
  have h1 := f32Round_mono (show (p : Rat) ≤ q by exact_mod_cast h)
  exact div_le_div_of_nonneg_right h1 (f32Round_nonneg (by positivity))

theorem ratioR_self {c : Nat} (h : 0 < c) : ratioR c c = 1 := by
  unfold ratioR
  rw [div_self (by have := f32Round_pos_nat h; linarith), f32Round_one]

theorem ratioR_le_one {p c : Nat} (h : p ≤ c) (hc : 0 < c) : ratioR p c ≤ 1 := by
  rw [← ratioR_self hc]; exact ratioR_mono h c

theorem ratioR_near {p c : Nat} (h : p ≤ c) (hc : 0 < c) (hs : c ≤ 16777216) :
    |ratioR p c - (p : Rat) / c| ≤ 1 / 16777216 := by
  unfold ratioR
  rw [f32Round_nat (h.trans hs), f32Round_nat hs]
  have hcp : (0 : Rat) < c := by exact_mod_cast hc
  have h1 : (p : Rat) / c ≤ 1 := (div_le_one hcp).2 (by exact_mod_cast h)
  have h0 : (0 : Rat) ≤ (p : Rat) / c := by positivity
  have := round_err (x := (p : Rat) / c) (-23) (by norm_num) (by
    rw [abs_of_nonneg h0]; norm_num; linarith)
  norm_num at this ⊢
  exact this

/-! ### Interpolation -/

theorem interpolateR_eq {p o : Rat} (hp : Crisp p) (ho : Crisp o) (a c : Nat) :
    Layout.interpolateR f32Round p o a c = f32Round (p + f32Round ((o - p) * ratioR a c)) := by
  unfold Layout.interpolateR ratioR
  rw [ho.sub_round hp]

/-- Growing. -/
theorem interpolateR_up {p o : Rat} (hp : Crisp p) (ho : Crisp o) (h : p ≤ o) {a b c : Nat} (hab : a ≤ b) :
    Layout.interpolateR f32Round p o a c ≤ Layout.interpolateR f32Round p o b c := by
  rw [interpolateR_eq hp ho, interpolateR_eq hp ho]
  refine f32Round_mono ?_
  have := f32Round_mono (mul_le_mul_of_nonneg_left (ratioR_mono hab c) (show 0 ≤ o - p by linarith))
  linarith

/-- Falling. -/
theorem interpolateR_down {p o : Rat} (hp : Crisp p) (ho : Crisp o) (h : o ≤ p) {a b c : Nat} (hab : a ≤ b) :
    Layout.interpolateR f32Round p o b c ≤ Layout.interpolateR f32Round p o a c := by
  rw [interpolateR_eq hp ho, interpolateR_eq hp ho]
  refine f32Round_mono ?_
  have := f32Round_mono (mul_le_mul_of_nonpos_left (ratioR_mono hab c) (show o - p ≤ 0 by linarith))
  linarith

theorem interpolateR_start {p o : Rat} (hp : Crisp p) (ho : Crisp o) (c : Nat) :
    Layout.interpolateR f32Round p o 0 c = p := by
  rw [interpolateR_eq hp ho]
  have : ratioR 0 c = 0 := by unfold ratioR; simp [f32Round_zero]
  rw [this, mul_zero, f32Round_zero, add_zero, hp.round]

theorem interpolateR_end {p o : Rat} (hp : Crisp p) (ho : Crisp o) {c : Nat} (hc : 0 < c) :
    Layout.interpolateR f32Round p o c c = o := by
  rw [interpolateR_eq hp ho, ratioR_self hc, mul_one, ho.sub_round hp, add_sub_cancel, ho.round]

theorem interpolateR_near {p o : Rat} (hp : Crisp p) (ho : Crisp o) {a c : Nat} (h : a ≤ c) (hc : 0 < c)
    (hs : c ≤ 16777216) :
    |Layout.interpolateR f32Round p o a c - (p + (o - p) * ((a : Rat) / c))| ≤ 5 / 512 := by
  rw [interpolateR_eq hp ho]
  have hd := ho.sub_le hp
  have r0 := ratioR_near h hc hs
  have s0 := ratioR_nonneg a c
  have s1 := ratioR_le_one h hc
  have hm : |(o - p) * ratioR a c| ≤ 65536 := by
    rw [abs_mul, abs_of_nonneg s0]
    have := mul_le_mul_of_nonneg_left s1 (abs_nonneg (o - p))
    linarith
  have r1 := round_err (x := (o - p) * ratioR a c) (-7) (by norm_num) (lt_of_le_of_lt hm (by norm_num))
  norm_num at r1
  have hI : |f32Round (p + f32Round ((o - p) * ratioR a c)) - (p + f32Round ((o - p) * ratioR a c))| ≤ 1 / 512 := by
    have hb : |p + f32Round ((o - p) * ratioR a c)| ≤ 32768 := by
      have h1 := hp.2
      have h2 := ho.2
      rcases le_total p o with hpo | hpo
      · have e0 : 0 ≤ (o - p) * ratioR a c := mul_nonneg (by linarith) s0
        have e1 : (o - p) * ratioR a c ≤ o - p := by
          have := mul_le_mul_of_nonneg_left s1 (show 0 ≤ o - p by linarith); linarith
        have e2 := f32Round_nonneg e0
        have e3 := f32Round_mono e1
        rw [ho.sub_round hp] at e3
        rw [abs_le] at *
        constructor <;> linarith
      · have e0 : (o - p) * ratioR a c ≤ 0 := mul_nonpos_of_nonpos_of_nonneg (by linarith) s0
        have e1 : o - p ≤ (o - p) * ratioR a c := by
          have := mul_le_mul_of_nonpos_left s1 (show o - p ≤ 0 by linarith); linarith
        have e2 := f32Round_mono e0
        rw [f32Round_zero] at e2
        have e3 := f32Round_mono e1
        rw [ho.sub_round hp] at e3
        rw [abs_le] at *
        constructor <;> linarith
    have := round_err (x := p + f32Round ((o - p) * ratioR a c)) (-8) (by norm_num) (by norm_num; linarith)
    norm_num at this
    norm_num
    linarith
  have hr : |(o - p) * ratioR a c - (o - p) * ((a : Rat) / c)| ≤ 1 / 256 := by
    rw [← mul_sub, abs_mul]
    have := mul_le_mul hd r0 (abs_nonneg _) (by norm_num)
    norm_num at this ⊢
    linarith
  rw [abs_le] at *
  constructor <;> linarith

/-- Interpolation in `float` in segment `j`. -/
def interpR (c : Nat → Nat) (x : Nat → Rat) (j q : Nat) : Rat :=
  if j = 0 then x 0
  else Layout.interpolateR f32Round (x (j - 1)) (x j) (q - c (j - 1)) (c j - c (j - 1))

/-- `v` is the value interpolated at `q` in `float`. -/
def IsOffsetR (c : Nat → Nat) (x : Nat → Rat) (n q : Nat) (v : Rat) : Prop :=
  ∃ j, j ≤ n ∧ q ≤ c j ∧ (∀ i, i < j → c i < q) ∧ v = interpR c x j q

theorem interpR_exact {c : Nat → Nat} {x : Nat → Rat} {j : Nat} (h1 : Crisp (x (j - 1))) (h2 : Crisp (x j))
    (h : 0 < j → c (j - 1) < c j) : interpR c x j (c j) = x j := by
  unfold interpR
  split
  · rename_i h0; subst h0; rfl
  · rename_i h0
    exact interpolateR_end h1 h2 (by have := h (by omega); omega)

/-- The segment of `q` is unique. -/
theorem IsOffsetR.at {c : Nat → Nat} {x : Nat → Rat} {n q : Nat} {v : Rat} (h : IsOffsetR c x n q v) {j : Nat}
    (h2 : q ≤ c j) (h3 : ∀ i, i < j → c i < q) : v = interpR c x j q := by
  obtain ⟨k, _, b2, b3, rfl⟩ := h
  have : j = k := by
    rcases Nat.lt_trichotomy j k with e | e | e
    · have := b3 j e; omega
    · exact e
    · have := h3 k e; omega
  rw [this]

theorem interpR_up {c : Nat → Nat} {x : Nat → Rat} {n j q : Nat} (hc : ∀ i, i ≤ n → Crisp (x i))
    (hx : ∀ i, i < n → x i ≤ x (i + 1)) (hj : j ≤ n) (h1 : q ≤ c j) (h2 : ∀ i, i < j → c i < q) :
    x (j - 1) ≤ interpR c x j q ∧ interpR c x j q ≤ x j := by
  unfold interpR
  split
  · rename_i h0; subst h0; exact ⟨le_refl _, le_refl _⟩
  · have h3 := h2 (j - 1) (by omega)
    have h4 : x (j - 1) ≤ x j := mono_of_step hx (by omega) hj
    have c1 := hc (j - 1) (by omega)
    have c2 := hc j hj
    constructor
    · have := interpolateR_up c1 c2 h4 (c := c j - c (j - 1)) (show 0 ≤ q - c (j - 1) by omega)
      rwa [interpolateR_start c1 c2] at this
    · have := interpolateR_up c1 c2 h4 (c := c j - c (j - 1)) (show q - c (j - 1) ≤ c j - c (j - 1) by omega)
      rwa [interpolateR_end c1 c2 (by omega)] at this

theorem interpR_down {c : Nat → Nat} {x : Nat → Rat} {n j q : Nat} (hc : ∀ i, i ≤ n → Crisp (x i))
    (hx : ∀ i, i < n → -x i ≤ -x (i + 1)) (hj : j ≤ n) (h1 : q ≤ c j) (h2 : ∀ i, i < j → c i < q) :
    x j ≤ interpR c x j q ∧ interpR c x j q ≤ x (j - 1) := by
  unfold interpR
  split
  · rename_i h0; subst h0; exact ⟨le_refl _, le_refl _⟩
  · have h3 := h2 (j - 1) (by omega)
    have h4 : x j ≤ x (j - 1) := by
      have := mono_of_step (x := fun i => -x i) hx (show j - 1 ≤ j by omega) hj
      linarith
    have c1 := hc (j - 1) (by omega)
    have c2 := hc j hj
    constructor
    · have := interpolateR_down c1 c2 h4 (c := c j - c (j - 1)) (show q - c (j - 1) ≤ c j - c (j - 1) by omega)
      rwa [interpolateR_end c1 c2 (by omega)] at this
    · have := interpolateR_down c1 c2 h4 (c := c j - c (j - 1)) (show 0 ≤ q - c (j - 1) by omega)
      rwa [interpolateR_start c1 c2] at this

theorem IsOffsetR.seg_le {c : Nat → Nat} {j k q q' : Nat} (a3 : ∀ i, i < j → c i < q) (b2 : q' ≤ c k)
    (hq : q ≤ q') : j ≤ k := by
  by_contra hc
  have := a3 k (by omega)
  omega

/-- monotone -/
theorem IsOffsetR.mono {c : Nat → Nat} {x : Nat → Rat} {n q q' : Nat} {v v' : Rat} (hc : ∀ i, i ≤ n → Crisp (x i))
    (hx : ∀ i, i < n → x i ≤ x (i + 1)) (h : IsOffsetR c x n q v) (h' : IsOffsetR c x n q' v') (hq : q ≤ q') :
    v ≤ v' := by
  obtain ⟨j, a1, a2, a3, rfl⟩ := h
  obtain ⟨k, b1, b2, b3, rfl⟩ := h'
  have hjk := IsOffsetR.seg_le a3 b2 hq
  by_cases e : j = k
  · subst e
    unfold interpR
    split
    · exact le_refl _
    · exact interpolateR_up (hc _ (by omega)) (hc _ a1) (mono_of_step hx (by omega) a1) (by omega)
  · have e1 := (interpR_up hc hx a1 a2 a3).2
    have e2 := (interpR_up hc hx b1 b2 b3).1
    have e3 : x j ≤ x (k - 1) := mono_of_step hx (by omega) (by omega)
    linarith

/-- antitone -/
theorem IsOffsetR.anti {c : Nat → Nat} {x : Nat → Rat} {n q q' : Nat} {v v' : Rat} (hc : ∀ i, i ≤ n → Crisp (x i))
    (hx : ∀ i, i < n → -x i ≤ -x (i + 1)) (h : IsOffsetR c x n q v) (h' : IsOffsetR c x n q' v') (hq : q ≤ q') :
    v' ≤ v := by
  obtain ⟨j, a1, a2, a3, rfl⟩ := h
  obtain ⟨k, b1, b2, b3, rfl⟩ := h'
  have hjk := IsOffsetR.seg_le a3 b2 hq
  have hm : ∀ {i j}, i ≤ j → j ≤ n → x j ≤ x i := fun {i j} hij hj => by
    have := mono_of_step (x := fun i => -x i) hx hij hj
    linarith
  by_cases e : j = k
  · subst e
    unfold interpR
    split
    · exact le_refl _
    · exact interpolateR_down (hc _ (by omega)) (hc _ a1) (hm (by omega) a1) (by omega)
  · have e1 := (interpR_down hc hx a1 a2 a3).1
    have e2 := (interpR_down hc hx b1 b2 b3).2
    have e3 : x (k - 1) ≤ x j := hm (by omega) (by omega)
    linarith

theorem IsOffsetR.bounds {c : Nat → Nat} {x : Nat → Rat} {n q : Nat} {v : Rat} (hc : ∀ i, i ≤ n → Crisp (x i))
    (hx : ∀ i, i < n → x i ≤ x (i + 1)) (h : IsOffsetR c x n q v) : x 0 ≤ v ∧ v ≤ x n := by
  obtain ⟨j, a1, a2, a3, rfl⟩ := h
  have e := interpR_up hc hx a1 a2 a3
  have e1 : x 0 ≤ x (j - 1) := mono_of_step hx (by omega) (by omega)
  have e2 : x j ≤ x n := mono_of_step hx a1 (Nat.le_refl _)
  exact ⟨by linarith, by linarith⟩

theorem IsOffsetR.bounds_down {c : Nat → Nat} {x : Nat → Rat} {n q : Nat} {v : Rat} (hc : ∀ i, i ≤ n → Crisp (x i))
    (hx : ∀ i, i < n → -x i ≤ -x (i + 1)) (h : IsOffsetR c x n q v) : x n ≤ v ∧ v ≤ x 0 := by
  obtain ⟨j, a1, a2, a3, rfl⟩ := h
  have e := interpR_down hc hx a1 a2 a3
  have e1 := mono_of_step (x := fun i => -x i) hx (show 0 ≤ j - 1 by omega) (by omega)
  have e2 := mono_of_step (x := fun i => -x i) hx a1 (Nat.le_refl _)
  exact ⟨by linarith, by linarith⟩

/-- near the exact value -/
theorem IsOffsetR.near {c : Nat → Nat} {x : Nat → Rat} {n q : Nat} {v w : Rat} (hc : ∀ i, i ≤ n → Crisp (x i))
    (hs : ∀ i, i ≤ n → c i ≤ 16777216) (h : IsOffsetR c x n q v) (h' : IsOffset c x n q w) : |v - w| ≤ 5 / 512 := by
  obtain ⟨j, a1, a2, a3, rfl⟩ := h
  rw [h'.at a2 a3]
  unfold interpR interp
  split
  · norm_num
  · rename_i h0
    have h3 := a3 (j - 1) (by omega)
    have := interpolateR_near (hc (j - 1) (by omega)) (hc j a1) (show q - c (j - 1) ≤ c j - c (j - 1) by omega)
      (by omega) (by have := hs j a1; omega)
    rwa [Nat.cast_sub (by omega), Nat.cast_sub (by omega)] at this

/-! ### The offsets -/

theorem glyphOffsetLtrR_spec {L : Layout φ} {ls : List (LineSpec φ)} {rs : List (RunSpec φ)} {y : Rat}
    (h : Stores L ls rs y) (hcr : ∀ x ∈ L.pos, Crisp x) (hsize : L.pos.length < 4294967296) {k : Nat} {r : RunSpec φ}
    (hk : (allRuns ls ++ rs)[k]? = some r) (hr : LtrRun r) (hend : r.charEnd < 4294967296) {q : Nat}
    (h1 : r.charStart ≤ q) (h2 : q ≤ r.charEnd) :
    ∃ v, L.glyphOffsetLtrR f32Round k q = some v ∧ IsOffsetR r.charAt r.xAt r.glyphs.length q v := by
  obtain ⟨f, e1, e2, e3, e4, e5, e6⟩ := h.read hk
  obtain ⟨g, b1, b2, b3, b4, b5⟩ := binarySearch_spec
    (fun i => (L.charIdx[i]?).map fun c => decide (c < q)) (fun i => decide (r.charAt (i - f) < q))
    r.glyphs.length f
    (by
      intro i hi hi2
      have := e4 (i - f) (by omega)
      rw [show f + (i - f) = i by omega] at this
      simp only [this, Option.map_some])
    (by
      intro i j hi hij hj hp
      simp only [decide_eq_true_eq] at hp ⊢
      exact Nat.lt_of_le_of_lt (charAt_sorted hr (by omega) (by omega)) hp)
  obtain ⟨j, rfl⟩ : ∃ j, g = f + j := ⟨g - f, by omega⟩
  have hj : j ≤ r.glyphs.length := by omega
  have hlt : ∀ i, i < j → r.charAt i < q := by
    intro i hi
    have := b4 (f + i) (by omega) (by omega)
    simpa using this
  have hge : q ≤ r.charAt j := by
    by_cases hjn : j = r.glyphs.length
    · rw [charAt_end r (by omega)]; exact h2
    · have := b5 (f + j) (Nat.le_refl _) (by omega)
      simpa using this
  have hnext : L.ltrNextChar ⟨r.font, f + r.glyphs.length, r.charStart, r.charEnd, r.charEndOffset, r.rtl⟩ (f + j) =
      some (r.charAt j) := by
    unfold Layout.ltrNextChar
    simp only
    split
    · rw [charAt_end r (by omega)]
    · exact e4 j (by omega)
  have hle : r.charAt j ≤ r.charEnd := by
    by_cases hjn : j = r.glyphs.length
    · rw [charAt_end r (by omega)]
    · exact Nat.le_of_lt (charAt_below hr.below (by omega))
  have hu0 : u32 (((f + r.glyphs.length : Nat) : Int) - f) = r.glyphs.length := by
    rw [u32_sub (by omega) (by omega)]; omega
  have hu1 : u32 (((r.charAt j : Nat) : Int) - q) = r.charAt j - q := u32_sub hge (by omega)
  have hu2 : u32 (((2 * (f + k) : Nat) : Int) + 2 * (((f + j : Nat) : Int) - f)) = 2 * (f + k) + 2 * j := by
    rw [u32_of (by omega) (by omega)]; omega
  unfold Layout.glyphOffsetLtrR
  simp only [e1, e2, e3, Option.bind_eq_bind, Option.bind_some, hu0, b1, hnext, hu1, hu2, e5 j hj]
  have hseg : IsOffsetR r.charAt r.xAt r.glyphs.length q (interpR r.charAt r.xAt j q) := ⟨j, hj, hge, hlt, rfl⟩
  by_cases hc : r.charAt j - q > 0 ∧ f + j > 0
  · have hj0 : j ≠ 0 := by
      rintro rfl
      by_cases hn : r.glyphs.length = 0
      · have := hr.empty (List.length_eq_zero_iff.1 hn)
        rw [charAt_end r (by omega)] at hc
        omega
      · have hg := List.getElem?_eq_getElem (show 0 < r.glyphs.length by omega)
        have := hr.first _ hg
        have e : r.charAt 0 = r.charStart := by
          unfold RunSpec.charAt
          rw [hg]; exact this
        omega
    rw [if_pos hc]
    have hp := e4 (j - 1) (by omega)
    rw [show f + (j - 1) = f + j - 1 by omega] at hp
    have hl1 := hlt (j - 1) (by omega)
    have hu3 : u32 (((r.charAt j : Nat) : Int) - r.charAt (j - 1)) = r.charAt j - r.charAt (j - 1) :=
      u32_sub (by omega) (by omega)
    have hu4 : u32 (((2 * (f + k) : Nat) : Int) + 2 * (((f + j : Nat) : Int) - f - 1)) = 2 * (f + k) + 2 * (j - 1) := by
      rw [u32_of (by omega) (by omega)]; omega
    have hu5 : u32 (((r.charAt j - r.charAt (j - 1) : Nat) : Int) - ((r.charAt j - q : Nat) : Int)) =
        q - r.charAt (j - 1) := by
      rw [u32_sub (by omega) (by omega)]; omega
    simp only [hp, Option.bind_some, hu3, hu4, hu5, e5 (j - 1) (by omega)]
    refine ⟨_, rfl, ?_⟩
    convert hseg using 1
    unfold interpR
    rw [if_neg hj0]
  · rw [if_neg hc]
    refine ⟨_, rfl, ?_⟩
    convert hseg using 1
    by_cases hj0 : j = 0
    · subst hj0; rfl
    · have hq : q = r.charAt j := by omega
      rw [hq, interpR_exact (hcr _ (List.mem_of_getElem? (e5 _ (by omega)))) (hcr _ (List.mem_of_getElem? (e5 _ hj)))]
      intro _
      rw [← hq]
      exact hlt _ (by omega)

theorem glyphOffsetRtlR_spec {L : Layout φ} {ls : List (LineSpec φ)} {rs : List (RunSpec φ)} {y : Rat}
    (h : Stores L ls rs y) (hcr : ∀ x ∈ L.pos, Crisp x) (hsize : L.pos.length < 4294967296) {k : Nat} {r : RunSpec φ}
    (hk : (allRuns ls ++ rs)[k]? = some r) (hr : RtlRun r) (hend : r.charEnd < 4294967296) {q : Nat}
    (h1 : r.charStart ≤ q) (h2 : q ≤ r.charEnd) :
    ∃ v, L.glyphOffsetRtlR f32Round k q = some v ∧ IsOffsetR r.charBack r.xBack r.glyphs.length q v := by
  obtain ⟨f, e1, e2, e3, e4, e5, e6⟩ := h.read hk
  obtain ⟨g, b1, b2, b3, b4, b5⟩ := binarySearch_spec
    (fun i => (L.charIdx[i]?).map fun c => decide (c ≥ q)) (fun i => decide (r.charAt (i - f) ≥ q))
    r.glyphs.length f
    (by
      intro i hi hi2
      have := e4 (i - f) (by omega)
      rw [show f + (i - f) = i by omega] at this
      simp only [this, Option.map_some])
    (by
      intro i j hi hij hj hp
      simp only [decide_eq_true_eq] at hp ⊢
      exact Nat.le_trans hp (charAt_anti hr (by omega) (by omega)))
  obtain ⟨j, rfl⟩ : ∃ j, g = f + j := ⟨g - f, by omega⟩
  have hj : j ≤ r.glyphs.length := by omega
  have hge : ∀ i, i < j → q ≤ r.charAt i := by
    intro i hi
    have := b4 (f + i) (by omega) (by omega)
    simpa using this
  have hlt : ∀ i, j ≤ i → i < r.glyphs.length → r.charAt i < q := by
    intro i hi hi2
    have := b5 (f + i) (by omega) (by omega)
    simpa using this
  have hnext : L.rtlNextChar ⟨r.font, f + r.glyphs.length, r.charStart, r.charEnd, r.charEndOffset, r.rtl⟩ f (f + j) =
      some (r.charBack (r.glyphs.length - j)) := by
    unfold RunSpec.charBack Layout.rtlNextChar
    simp only
    by_cases h0 : j = 0
    · rw [if_pos (by omega), if_neg (by omega)]
    · rw [if_neg (by omega), if_pos (by omega), show f + j - 1 = f + (j - 1) by omega, e4 (j - 1) (by omega)]
      congr 2
      omega
  have hback : ∀ i, i < r.glyphs.length - j → r.charBack i < q := by
    intro i hi
    unfold RunSpec.charBack
    rw [if_pos (by omega)]
    exact hlt _ (by omega) (by omega)
  have hqn : q ≤ r.charBack (r.glyphs.length - j) := by
    unfold RunSpec.charBack
    by_cases h0 : j = 0
    · rw [if_neg (by omega)]; exact h2
    · rw [if_pos (by omega)]
      exact hge _ (by omega)
  have hle : r.charBack (r.glyphs.length - j) ≤ r.charEnd := by
    unfold RunSpec.charBack
    split
    · exact Nat.le_of_lt (charAt_below hr.below (by omega))
    · exact Nat.le_refl _
  have hu0 : u32 (((f + r.glyphs.length : Nat) : Int) - f) = r.glyphs.length := by
    rw [u32_sub (by omega) (by omega)]; omega
  have hu1 : u32 (((r.charBack (r.glyphs.length - j) : Nat) : Int) - q) = r.charBack (r.glyphs.length - j) - q :=
    u32_sub hqn (by omega)
  have hu2 : u32 (((2 * (f + k) : Nat) : Int) + 2 * (((f + j : Nat) : Int) - f)) = 2 * (f + k) + 2 * j := by
    rw [u32_of (by omega) (by omega)]; omega
  have hxb : r.xBack (r.glyphs.length - j) = r.xAt j := by
    unfold RunSpec.xBack
    congr 1
    omega
  unfold Layout.glyphOffsetRtlR
  simp only [e1, e2, e3, Option.bind_eq_bind, Option.bind_some, hu0, b1, hnext, hu1, hu2, e5 j hj]
  have hseg : IsOffsetR r.charBack r.xBack r.glyphs.length q (interpR r.charBack r.xBack (r.glyphs.length - j) q) :=
    ⟨r.glyphs.length - j, by omega, hqn, hback, rfl⟩
  by_cases hc : r.charBack (r.glyphs.length - j) - q > 0 ∧ f + j < f + r.glyphs.length
  · rw [if_pos hc]
    have hp := e4 j (by omega)
    have hl1 := hlt j (Nat.le_refl _) (by omega)
    have hpb : r.charBack (r.glyphs.length - j - 1) = r.charAt j := by
      unfold RunSpec.charBack
      rw [if_pos (by omega)]
      congr 1
      omega
    have hu3 : u32 (((r.charBack (r.glyphs.length - j) : Nat) : Int) - r.charAt j) =
        r.charBack (r.glyphs.length - j) - r.charAt j :=
      u32_sub (by omega) (by omega)
    have hu4 : u32 (((2 * (f + k) : Nat) : Int) + 2 * (((f + j : Nat) : Int) - f + 1)) = 2 * (f + k) + 2 * (j + 1) := by
      rw [u32_of (by omega) (by omega)]; omega
    have hu5 : u32 (((r.charBack (r.glyphs.length - j) - r.charAt j : Nat) : Int) -
        ((r.charBack (r.glyphs.length - j) - q : Nat) : Int)) = q - r.charAt j := by
      rw [u32_sub (by omega) (by omega)]; omega
    simp only [hp, Option.bind_some, hu3, hu4, hu5, e5 (j + 1) (by omega)]
    refine ⟨_, rfl, ?_⟩
    convert hseg using 1
    unfold interpR
    have hx1 : r.xBack (r.glyphs.length - j - 1) = r.xAt (j + 1) := by
      unfold RunSpec.xBack
      congr 1
      omega
    rw [if_neg (by omega), hpb, hxb, hx1]
  · rw [if_neg hc]
    refine ⟨_, rfl, ?_⟩
    convert hseg using 1
    by_cases hj0 : r.glyphs.length - j = 0
    · unfold interpR
      rw [if_pos hj0, ← hxb, hj0]
    · have hq : q = r.charBack (r.glyphs.length - j) := by omega
      have hx1 : r.xBack (r.glyphs.length - j - 1) = r.xAt (j + 1) := by
        unfold RunSpec.xBack
        congr 1
        omega
      rw [hq, interpR_exact (by rw [hx1]; exact hcr _ (List.mem_of_getElem? (e5 _ (by omega))))
        (by rw [hxb]; exact hcr _ (List.mem_of_getElem? (e5 _ hj))), hxb]
      intro _
      rw [← hq]
      exact hback _ (by omega)


end RichText
