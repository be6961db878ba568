import Verif.Proof.RoundedQueries
import Verif.Props.HitTest
/-! `find_closest_cursor_position` in `float`. -/
namespace RichText
variable {φ : Type _}

/-- Doubling commutes with rounding. -/
theorem f32Round_double {x : Rat} (h : 1 ≤ x) : f32Round (2 * x) = 2 * f32Round x := by
  have hx : 0 < x := by linarith
  obtain ⟨a1, a2⟩ := binExp_spec hx
  obtain ⟨b1, b2⟩ := binExp_spec (show 0 < 2 * x by linarith)
  have two : (1 : Rat) < 2 := by norm_num
  have e : binExp (2 * x) = binExp x + 1 := by
    have c1 : (2 : Rat) ^ (binExp x + 1) ≤ 2 * x := by
      rw [zpow_add₀ (by norm_num)]; norm_num; linarith
    have c2 : 2 * x < (2 : Rat) ^ (binExp x + 1 + 1) := by
      rw [zpow_add₀ (by norm_num)]; norm_num; linarith
    have d1 := (zpow_lt_zpow_iff_right₀ two).1 (b1.trans_lt c2)
    have d2 := (zpow_lt_zpow_iff_right₀ two).1 (c1.trans_lt b2)
    omega
  have e0 : 0 ≤ binExp x := by
    have : (2 : Rat) ^ (0 : Int) < (2 : Rat) ^ (binExp x + 1) := by
      rw [zpow_zero]; linarith
    have := (zpow_lt_zpow_iff_right₀ two).1 this
    omega
  have u : ulp (2 * x) = 2 * ulp x := by
    unfold ulp
    rw [if_neg (by linarith), if_neg (by linarith), e, max_eq_left (by omega), max_eq_left (by omega),
      show binExp x + 1 - 23 = binExp x - 23 + 1 by ring, zpow_add₀ (by norm_num)]
    norm_num
    ring
  have hu := ulp_pos x
  unfold f32Round
  rw [if_neg (by linarith), if_neg (by linarith), u, mul_div_mul_left _ _ (by norm_num)]
  ring

theorem ratioR_two {c : Nat} (h : 0 < c) : ratioR (2 * c) c = 2 := by
  unfold ratioR
  have h1 := f32Round_pos_nat h
  rw [Nat.cast_mul, Nat.cast_ofNat, f32Round_double (by exact_mod_cast h),
    mul_div_assoc, div_self (by linarith), mul_one]
  exact f32Round_float ⟨2, 0, by norm_num, by norm_num, by norm_num⟩

/-- A comparison of rounded distances. -/
theorem round_le_near {a b : Rat} (h : f32Round b ≤ f32Round a) (ha : 0 ≤ a) (hb : 0 ≤ b) (hb2 : b ≤ 65536) :
    b ≤ a + 1 / 128 := by
  by_cases hab : b ≤ a
  · linarith
  · have r1 := round_err (x := b) (-7) (by norm_num) (by rw [abs_of_nonneg hb]; norm_num; linarith)
    have r2 := round_err (x := a) (-7) (by norm_num) (by rw [abs_of_nonneg ha]; norm_num; linarith)
    norm_num at r1 r2
    rw [abs_le] at r1 r2
    linarith [r1.1, r2.2]

theorem lt_of_round_lt {a b : Rat} (h : f32Round a < f32Round b) : a < b := by
  by_contra hc
  exact absurd (f32Round_mono (not_lt.1 hc)) (not_le.2 h)

/-- Position of a boundary in a cluster, in `float`. -/
def clusterPosR (sc ec : Nat) (sp ep : Rat) (b : Nat) : Rat :=
  Layout.interpolateR f32Round sp ep (b - sc) (ec - sc)

theorem posOfR_eq {sc ec b : Nat} {sp ep : Rat} (h1 : sc < ec) (h2 : sc ≤ b) (h3 : b < 4294967296)
    (h4 : ec < 4294967296) : Layout.Cluster.posOfR f32Round ⟨sc, ec, sp, ep⟩ b = clusterPosR sc ec sp ep b := by
  unfold Layout.Cluster.posOfR clusterPosR Layout.interpolateR
  simp only
  rw [u32_sub h2 h3, u32_sub (by omega) h4, mul_comm]

theorem clusterPosR_start (sc ec : Nat) {sp ep : Rat} (h1 : Crisp sp) (h2 : Crisp ep) : clusterPosR sc ec sp ep sc = sp := by
  unfold clusterPosR
  rw [Nat.sub_self, interpolateR_start h1 h2]

theorem clusterPosR_end {sc ec : Nat} (h : sc < ec) {sp ep : Rat} (h1 : Crisp sp) (h2 : Crisp ep) :
    clusterPosR sc ec sp ep ec = ep := by
  unfold clusterPosR
  exact interpolateR_end h1 h2 (by omega)

theorem clusterPosR_mono (sc ec : Nat) {sp ep : Rat} (h1 : Crisp sp) (h2 : Crisp ep) (hp : sp ≤ ep) {a b : Nat} (hab : a ≤ b) :
    clusterPosR sc ec sp ep a ≤ clusterPosR sc ec sp ep b :=
  interpolateR_up h1 h2 hp (by omega)

theorem clusterPosR_anti (sc ec : Nat) {sp ep : Rat} (h1 : Crisp sp) (h2 : Crisp ep) (hp : ep ≤ sp) {a b : Nat} (hab : a ≤ b) :
    clusterPosR sc ec sp ep b ≤ clusterPosR sc ec sp ep a :=
  interpolateR_down h1 h2 hp (by omega)

theorem clusterPosR_near {sc ec b : Nat} (h : sc < ec) (hb : sc ≤ b) (hb2 : b ≤ ec) (hs : ec ≤ 16777216) {sp ep : Rat}
    (h1 : Crisp sp) (h2 : Crisp ep) : |clusterPosR sc ec sp ep b - clusterPos sc ec sp ep b| ≤ 5 / 512 := by
  have := interpolateR_near h1 h2 (show b - sc ≤ ec - sc by omega) (by omega) (by omega)
  unfold clusterPosR clusterPos
  rwa [Nat.cast_sub hb, Nat.cast_sub (by omega)] at this

/-- Twice the cluster. -/
theorem clusterPosR_double {sc ec : Nat} (h : sc < ec) {sp ep : Rat} (h1 : Crisp sp) (h2 : Crisp ep) :
    clusterPosR sc ec sp ep (2 * ec - sc) = 2 * ep - sp := by
  unfold clusterPosR
  rw [show 2 * ec - sc - sc = 2 * (ec - sc) by omega, interpolateR_eq h1 h2, ratioR_two (by omega)]
  have hf := h2.1.sub h1.1
  have hd := h2.sub_le h1
  have e1 : f32Round ((ep - sp) * 2) = (ep - sp) * 2 := by
    rw [mul_two]
    refine (hf.add hf).round ?_
    rw [abs_le] at *
    constructor <;> linarith
  rw [e1, show sp + (ep - sp) * 2 = ep + (ep - sp) by ring]
  have : f32Round (ep + (ep - sp)) = ep + (ep - sp) := by
    refine (h2.1.add hf).round ?_
    have := h2.2
    rw [abs_le] at *
    constructor <;> linarith
  rw [this]
  ring

/-- The character picked in a cluster, up to 1/128 pixel. -/
structure PickedR (follow : Layout.Following) (sc ec : Nat) (x : Rat) (P : Nat → Rat) (ch : Nat) : Prop where
  /-- two neighbours enclose `x`, the nearer one is taken -/
  near : ∃ a, sc ≤ a ∧ a < ec ∧ (a = sc ∨ ∃ c, sc ≤ c ∧ follow c = some a) ∧
    ((ch = a ∧ (∀ b, follow a = some b → |P a - x| ≤ |P b - x| + 1 / 128)) ∨
      (follow a = some ch ∧ |P ch - x| ≤ |P a - x| + 1 / 128)) ∧
    (∀ b, follow a = some b → (P a ≤ x ∧ x ≤ P b) ∨ (P b ≤ x ∧ x ≤ P a))

theorem pickCharR_ltr {follow : Layout.Following} {B : Nat → Prop} (hf : FollowsBoundaries follow B)
    {sc ec : Nat} (h : sc < ec) (hec : ec < 2147483648) {sp ep x : Rat} (hsp : Crisp sp) (hep : Crisp ep) (hp : sp ≤ ep) (hx2 : x ≤ ep) (fuel : Nat) :
    ∀ curr, sc ≤ curr → curr < ec → ec - curr < fuel → clusterPosR sc ec sp ep curr < x →
      (curr = sc ∨ ∃ c, sc ≤ c ∧ follow c = some curr) →
      ∃ ch, Layout.pickCharR f32Round follow ⟨sc, ec, sp, ep⟩ false x fuel curr (clusterPosR sc ec sp ep curr) = some (ch, true) ∧
        PickedR follow sc ec x (clusterPosR sc ec sp ep) ch := by
  induction fuel with
  | zero => intro curr _ _ h3; omega
  | succ fuel ih =>
    intro curr h1 h2 h3 h4 h5
    have hle : ∀ b, ec ≤ b → x ≤ clusterPosR sc ec sp ep b := by
      intro b hb
      have := clusterPosR_mono sc ec hsp hep hp hb
      rw [clusterPosR_end h hsp hep] at this
      linarith
    rw [Layout.pickCharR]
    cases hn : follow curr with
    | none =>
      have e0 : Layout.nextChar32 none = 4294967295 := rfl
      have e := posOfR_eq (b := 4294967295) (sp := sp) (ep := ep) h (by omega) (by omega) (show ec < 4294967296 by omega)
      have h6 := hle 4294967295 (by omega)
      have h7 : ¬ (f32Round (clusterPosR sc ec sp ep 4294967295 - x) < f32Round (x - clusterPosR sc ec sp ep curr)) := by
        have g1 := clusterPosR_mono sc ec hsp hep hp h1
        rw [clusterPosR_start sc ec hsp hep] at g1
        have g2 := clusterPosR_mono sc ec hsp hep hp (show 2 * ec - sc ≤ 4294967295 by omega)
        rw [clusterPosR_double h hsp hep] at g2
        exact not_lt.2 (f32Round_mono (by linarith))
      simp only [e0, e, Bool.false_and, Bool.false_eq_true, if_false, Bool.not_false, Bool.true_and,
        h4, h6, h7, decide_true, if_true]
      refine ⟨curr, rfl, ⟨curr, h1, h2, h5, .inl ⟨rfl, ?_⟩, ?_⟩⟩
      · intro b hb; rw [hn] at hb; cases hb
      · intro b hb; rw [hn] at hb; cases hb
    | some n =>
      obtain ⟨f1, f2, f3⟩ := hf.next curr n hn
      have f4 := hf.size n f2
      have e0 : Layout.nextChar32 (some n) = n := rfl
      have e := posOfR_eq (b := n) (sp := sp) (ep := ep) h (by omega) (by omega) (show ec < 4294967296 by omega)
      simp only [e0, e, Bool.false_and, Bool.false_eq_true, if_false, Bool.not_false, Bool.true_and, h4, decide_true]
      by_cases h6 : x ≤ clusterPosR sc ec sp ep n
      · simp only [h6, decide_true, if_true]
        by_cases h7 : f32Round (clusterPosR sc ec sp ep n - x) < f32Round (x - clusterPosR sc ec sp ep curr)
        · refine ⟨n, by rw [if_pos h7], ⟨curr, h1, h2, h5, .inr ⟨hn, ?_⟩, ?_⟩⟩
          · have := lt_of_round_lt h7
            rw [abs_of_nonneg (by linarith), abs_of_nonpos (by linarith)]; linarith
          · intro b hb; rw [hn] at hb; cases hb; exact .inl ⟨le_of_lt h4, h6⟩
        · refine ⟨curr, by rw [if_neg h7], ⟨curr, h1, h2, h5, .inl ⟨rfl, ?_⟩, ?_⟩⟩
          · intro b hb; rw [hn] at hb; cases hb
            have g1 := clusterPosR_mono sc ec hsp hep hp h1
            rw [clusterPosR_start sc ec hsp hep] at g1
            have g2 := hep.sub_le hsp
            rw [abs_le] at g2
            have := round_le_near (not_lt.1 h7) (by linarith) (by linarith) (by linarith)
            rw [abs_of_nonpos (by linarith), abs_of_nonneg (by linarith)]; linarith
          · intro b hb; rw [hn] at hb; cases hb; exact .inl ⟨le_of_lt h4, h6⟩
      · have h8 : ¬ n ≥ ec := fun hc => h6 (hle n hc)
        simp only [h6, decide_false, Bool.false_eq_true, if_false, h8]
        exact ih n (by omega) (by omega) (by omega) (by linarith) (.inr ⟨curr, h1, hn⟩)

theorem pickCharR_rtl {follow : Layout.Following} {B : Nat → Prop} (hf : FollowsBoundaries follow B)
    {sc ec : Nat} (h : sc < ec) (hec : ec < 2147483648) {sp ep x : Rat} (hsp : Crisp sp) (hep : Crisp ep) (hx1 : ep < x) (fuel : Nat) :
    ∀ curr, sc ≤ curr → curr < ec → ec - curr < fuel → x ≤ clusterPosR sc ec sp ep curr →
      (curr = sc ∨ ∃ c, sc ≤ c ∧ follow c = some curr) →
      ∃ ch, Layout.pickCharR f32Round follow ⟨sc, ec, sp, ep⟩ true x fuel curr (clusterPosR sc ec sp ep curr) = some (ch, true) ∧
        PickedR follow sc ec x (clusterPosR sc ec sp ep) ch := by
  induction fuel with
  | zero => intro curr _ _ h3; omega
  | succ fuel ih =>
    intro curr h1 h2 h3 h4 h5
    have hp : ep ≤ sp := by
      by_contra hc
      have := clusterPosR_mono sc ec hsp hep (show sp ≤ ep by linarith) (show curr ≤ ec by omega)
      rw [clusterPosR_end h hsp hep] at this
      linarith
    have hle : ∀ b, ec ≤ b → clusterPosR sc ec sp ep b < x := by
      intro b hb
      have := clusterPosR_anti sc ec hsp hep hp hb
      rw [clusterPosR_end h hsp hep] at this
      linarith
    rw [Layout.pickCharR]
    cases hn : follow curr with
    | none =>
      have e0 : Layout.nextChar32 none = 4294967295 := rfl
      have e := posOfR_eq (b := 4294967295) (sp := sp) (ep := ep) h (by omega) (by omega) (show ec < 4294967296 by omega)
      have h6 := hle 4294967295 (by omega)
      have h7 : ¬ (f32Round (x - clusterPosR sc ec sp ep 4294967295) < f32Round (clusterPosR sc ec sp ep curr - x)) := by
        have g1 := clusterPosR_anti sc ec hsp hep hp h1
        rw [clusterPosR_start sc ec hsp hep] at g1
        have g2 := clusterPosR_anti sc ec hsp hep hp (show 2 * ec - sc ≤ 4294967295 by omega)
        rw [clusterPosR_double h hsp hep] at g2
        exact not_lt.2 (f32Round_mono (by linarith))
      simp only [e0, e, Bool.true_and, h4, h6, h7, decide_true, if_true, if_false]
      refine ⟨curr, rfl, ⟨curr, h1, h2, h5, .inl ⟨rfl, ?_⟩, ?_⟩⟩
      · intro b hb; rw [hn] at hb; cases hb
      · intro b hb; rw [hn] at hb; cases hb
    | some n =>
      obtain ⟨f1, f2, f3⟩ := hf.next curr n hn
      have f4 := hf.size n f2
      have e0 : Layout.nextChar32 (some n) = n := rfl
      have e := posOfR_eq (b := n) (sp := sp) (ep := ep) h (by omega) (by omega) (show ec < 4294967296 by omega)
      simp only [e0, e, Bool.true_and, h4, decide_true, Bool.and_true]
      by_cases h6 : clusterPosR sc ec sp ep n < x
      · simp only [h6, decide_true, if_true]
        by_cases h7 : f32Round (x - clusterPosR sc ec sp ep n) < f32Round (clusterPosR sc ec sp ep curr - x)
        · refine ⟨n, by rw [if_pos h7], ⟨curr, h1, h2, h5, .inr ⟨hn, ?_⟩, ?_⟩⟩
          · have := lt_of_round_lt h7
            rw [abs_of_nonpos (by linarith), abs_of_nonneg (by linarith)]; linarith
          · intro b hb; rw [hn] at hb; cases hb; exact .inr ⟨le_of_lt h6, h4⟩
        · refine ⟨curr, by rw [if_neg h7], ⟨curr, h1, h2, h5, .inl ⟨rfl, ?_⟩, ?_⟩⟩
          · intro b hb; rw [hn] at hb; cases hb
            have g1 := clusterPosR_anti sc ec hsp hep hp h1
            rw [clusterPosR_start sc ec hsp hep] at g1
            have g2 := hsp.sub_le hep
            rw [abs_le] at g2
            have := round_le_near (not_lt.1 h7) (by linarith) (by linarith) (by linarith)
            rw [abs_of_nonneg (by linarith), abs_of_nonpos (by linarith)]; linarith
          · intro b hb; rw [hn] at hb; cases hb; exact .inr ⟨le_of_lt h6, h4⟩
      · have h8 : ¬ n ≥ ec := fun hc => h6 (hle n hc)
        simp only [h6, decide_false, Bool.false_eq_true, if_false, Bool.not_true, Bool.false_and, h8]
        exact ih n (by omega) (by omega) (by omega) (by linarith) (.inr ⟨curr, h1, hn⟩)

/-- A picked character is in the cluster if the cluster ends at or before a
boundary `e`. -/
theorem PickedR.range {follow : Layout.Following} {B : Nat → Prop} (hf : FollowsBoundaries follow B) {sc ec e : Nat}
    {x : Rat} {P : Nat → Rat} {ch : Nat} (h : PickedR follow sc ec x P ch) (he : ec ≤ e) (hB : B e) :
    sc ≤ ch ∧ ch ≤ e := by
  obtain ⟨a, h1, h2, _, h4, _⟩ := h.near
  rcases h4 with ⟨rfl, _⟩ | ⟨h4, _⟩
  · omega
  · obtain ⟨f1, _, f3⟩ := hf.next a ch h4
    have := f3 e (by omega) hB
    omega

/-- The picked character is the boundary nearest to `x`, if positions are
monotone in the character (in either direction) and the cluster starts at a
boundary. -/
theorem PickedR.nearest {follow : Layout.Following} {B : Nat → Prop} (hf : FollowsBoundaries follow B) {sc ec : Nat}
    {x : Rat} {P : Nat → Rat} {ch : Nat} (h : PickedR follow sc ec x P ch) (hs : B sc) (he : B ec)
    (hP : (∀ a b, a ≤ b → P a ≤ P b) ∨ (∀ a b, a ≤ b → P b ≤ P a)) :
    B ch ∧ ∀ b, B b → |P ch - x| ≤ |P b - x| + 1 / 128 := by
  obtain ⟨a, h1, h2, h3, h4, h5⟩ := h.near
  have hBa : B a := by
    rcases h3 with rfl | ⟨c, _, h3⟩
    · exact hs
    · exact (hf.next c a h3).2.1
  obtain ⟨n, hn⟩ : ∃ n, follow a = some n := by
    cases hn : follow a with
    | none => exact absurd he (hf.done a ec hn h2)
    | some n => exact ⟨n, rfl⟩
  obtain ⟨f1, f2, f3⟩ := hf.next a n hn
  have h6 := h5 n hn
  have hch : B ch ∧ |P ch - x| ≤ |P a - x| + 1 / 128 ∧ |P ch - x| ≤ |P n - x| + 1 / 128 := by
    rcases h4 with ⟨rfl, h4⟩ | ⟨h4, h7⟩
    · exact ⟨hBa, by linarith, h4 n hn⟩
    · rw [hn] at h4; cases h4
      exact ⟨f2, h7, by linarith⟩
  refine ⟨hch.1, ?_⟩
  intro b hb
  have hcase : b ≤ a ∨ n ≤ b := by
    by_contra hc
    have := f3 b (by omega) hb
    omega
  rcases hP with hP | hP
  · have hmono := hP a n (by omega)
    have h7 : P a ≤ x ∧ x ≤ P n := by
      rcases h6 with h6 | ⟨h6, h7⟩
      · exact h6
      · exact ⟨by linarith, by linarith⟩
    rcases hcase with hc | hc
    · have := hP b a hc
      refine le_trans hch.2.1 (add_le_add_left ?_ _)
      rw [abs_of_nonpos (by linarith), abs_of_nonpos (by linarith)]; linarith
    · have := hP n b hc
      refine le_trans hch.2.2 (add_le_add_left ?_ _)
      rw [abs_of_nonneg (by linarith), abs_of_nonneg (by linarith)]; linarith
  · have hmono := hP a n (by omega)
    have h7 : P n ≤ x ∧ x ≤ P a := by
      rcases h6 with ⟨h6, h7⟩ | h6
      · exact ⟨by linarith, by linarith⟩
      · exact h6
    rcases hcase with hc | hc
    · have := hP b a hc
      refine le_trans hch.2.1 (add_le_add_left ?_ _)
      rw [abs_of_nonneg (by linarith), abs_of_nonneg (by linarith)]; linarith
    · have := hP n b hc
      refine le_trans hch.2.2 (add_le_add_left ?_ _)
      rw [abs_of_nonpos (by linarith), abs_of_nonpos (by linarith)]; linarith

/-- What `pickInClusterR` returns. -/
theorem pickInClusterR_spec {L : Layout φ} {ls : List (LineSpec φ)} {rs : List (RunSpec φ)} {y : Rat}
    (h : Stores L ls rs y) {k firstRun lastRun : Nat} {run : VisualRun φ} (h1 : firstRun ≤ k) (h2 : k < lastRun)
    (h3 : lastRun ≤ (allRuns ls ++ rs).length) (follow : Layout.Following) (c : Layout.Cluster) (x : Rat) :
    (c.startChar = c.endChar →
      ∃ a, L.pickInClusterR f32Round follow run k firstRun lastRun c x = some (c.startChar, a) ∧
        (L.firstGlyphAffinity k (decide (k = firstRun)) run.rtl = some false → a = .default)) ∧
    (∀ ch, c.startChar ≠ c.endChar → Layout.pickCharR f32Round follow c run.rtl x (c.endChar - c.startChar + 1) c.startChar c.startPos =
      some (ch, true) → ∃ a, L.pickInClusterR f32Round follow run k firstRun lastRun c x = some (ch, a) ∧
        (run.rtl = false → L.firstGlyphAffinity k (decide (k = firstRun)) run.rtl = some false →
          (ch ≠ run.charEnd → a = .default) ∧
          (k + 1 = lastRun → run.charEndOffset = 0 → ch = run.charEnd → a = .opposite))) := by
  have e1 : ∃ b, L.firstGlyphAffinity k (decide (k = firstRun)) run.rtl = some b := by
    unfold Layout.firstGlyphAffinity
    split
    · rename_i hc
      have : k ≠ firstRun := by
        intro e; simp [e] at hc
      rw [h.runs (k - 1) _ (List.getElem?_eq_getElem (by omega))]
      exact ⟨_, rfl⟩
    · exact ⟨_, rfl⟩
  have e2 : ∀ s, ∃ b, L.lastGlyphAffinity k s (decide (k = lastRun - 1)) run.rtl = some b := by
    intro s
    unfold Layout.lastGlyphAffinity
    split
    · exact ⟨_, rfl⟩
    · split
      · rename_i hc
        have : k ≠ lastRun - 1 := by
          intro e; simp [e] at hc
        rw [h.runs (k + 1) _ (List.getElem?_eq_getElem (by omega))]
        exact ⟨_, rfl⟩
      · exact ⟨_, rfl⟩
  obtain ⟨b1, e1⟩ := e1
  obtain ⟨b2, e2⟩ := e2 (decide (k = lastRun - 1) && run.charEndOffset == 0)
  unfold Layout.pickInClusterR
  simp only [e1, e2, Option.bind_eq_bind, Option.bind_some]
  constructor
  · intro hc
    rw [if_pos hc]
    refine ⟨_, rfl, ?_⟩
    intro hb
    rw [Option.some.inj hb]
    rfl
  · intro ch hc hp
    rw [if_neg hc, hp]
    simp only
    split
    · rename_i hrtl
      exact ⟨_, rfl, fun hl => by rw [hrtl] at hl; cases hl⟩
    · refine ⟨_, rfl, ?_⟩
      intro hl hb
      have hb1 := Option.some.inj hb
      subst hb1
      constructor
      · intro hne
        simp [Layout.mkAffinity, hne]
      · intro hk h0 hce
        have hb2 : b2 = true := by
          have : decide (k = lastRun - 1) = true := by simp; omega
          rw [this, h0] at e2
          simp [Layout.lastGlyphAffinity] at e2
          exact e2
        simp [Layout.mkAffinity, hce, hb2]

/-- The result in a left-to-right run; `j` is the number of glyphs that start
before `x`. -/
theorem findInRunR_ltr {L : Layout φ} {ls : List (LineSpec φ)} {rs : List (RunSpec φ)} {y : Rat}
    (h : Stores L ls rs y) (hcr : ∀ x ∈ L.pos, Crisp x) (hsize : L.pos.length < 4294967296) {k firstRun lastRun : Nat} {r : RunSpec φ}
    (hk : (allRuns ls ++ rs)[k]? = some r) (hr : LtrRun r) (hend : r.charEnd < 2147483648)
    (h1 : firstRun ≤ k) (h2 : k < lastRun) (h3 : lastRun ≤ (allRuns ls ++ rs).length)
    {follow : Layout.Following} {B : Nat → Prop} (hf : FollowsBoundaries follow B) {x : Rat} (hx : x ≤ r.endX) :
    ∃ j p a, j ≤ r.glyphs.length ∧ (∀ i, i < j → r.xAt i < x) ∧ x ≤ r.xAt j ∧
      L.findInRunR f32Round follow k firstRun lastRun x = some (p, a) ∧
      ((j = 0 ∧ p = r.charStart) ∨
        (0 < j ∧ r.charAt (j - 1) = r.charAt j ∧ p = r.charAt (j - 1)) ∨
        (0 < j ∧ r.charAt (j - 1) < r.charAt j ∧ PickedR follow (r.charAt (j - 1)) (r.charAt j) x
          (clusterPosR (r.charAt (j - 1)) (r.charAt j) (r.xAt (j - 1)) (r.xAt j)) p)) ∧
      (L.firstGlyphAffinity k (decide (k = firstRun)) r.rtl = some false →
        (p ≠ r.charEnd ∨ j = 0 → a = .default) ∧
        (0 < j → k + 1 = lastRun → r.charEndOffset = 0 → p = r.charEnd → a = .opposite)) := by
  obtain ⟨f, e1, e2, e3, e4, e5, e6⟩ := h.read hk
  have hmono : ∀ i j, i ≤ j → j ≤ r.glyphs.length → r.xAt i ≤ r.xAt j := fun i j hij hj =>
    mono_of_step (x := r.xAt) (fun i hi => xAt_step hr.mono hi) hij hj
  obtain ⟨j, b1, b2, b3, b4, b5⟩ := binarySearch_spec
    (fun i => (L.pos[2 * (f + k) + 2 * i]?).map fun p => decide (p < x)) (fun i => decide (r.xAt i < x))
    r.glyphs.length 0
    (by
      intro i _ hi2
      simp only [e5 i (by omega), Option.map_some])
    (by
      intro i j _ hij hj hp
      simp only [decide_eq_true_eq] at hp ⊢
      exact lt_of_le_of_lt (hmono i j hij (by omega)) hp)
  have hj : j ≤ r.glyphs.length := by omega
  have hxc : ∀ i, i ≤ r.glyphs.length → Crisp (r.xAt i) := fun i hi => hcr _ (List.mem_of_getElem? (e5 i hi))
  have hlt : ∀ i, i < j → r.xAt i < x := by
    intro i hi
    simpa using b4 i (by omega) hi
  have hge : x ≤ r.xAt j := by
    by_cases hn : j = r.glyphs.length
    · rw [hn]
      have : r.xAt r.glyphs.length = r.endX := by unfold RunSpec.xAt RunSpec.xs; simp
      rw [this]; exact hx
    · simpa using b5 j (Nat.le_refl _) (by omega)
  have hu0 : u32 (((f + r.glyphs.length : Nat) : Int) - f) = r.glyphs.length := by
    rw [u32_sub (by omega) (by omega)]; omega
  have hle : r.charAt j ≤ r.charEnd := by
    by_cases hjn : j = r.glyphs.length
    · rw [charAt_end r (by omega)]
    · exact Nat.le_of_lt (charAt_below hr.below (by omega))
  have hec : L.ltrNextChar ⟨r.font, f + r.glyphs.length, r.charStart, r.charEnd, r.charEndOffset, r.rtl⟩ (f + j) =
      some (r.charAt j) := by
    unfold Layout.ltrNextChar
    simp only
    split
    · rw [charAt_end r (by omega)]
    · exact e4 j (by omega)
  have hcl : ∃ c, L.clusterAt ⟨r.font, f + r.glyphs.length, r.charStart, r.charEnd, r.charEndOffset, r.rtl⟩ f
      (2 * (f + k)) (f + j) = some c ∧
      ((j = 0 ∧ c.startChar = r.charStart ∧ c.endChar = r.charStart) ∨
       (0 < j ∧ c = ⟨r.charAt (j - 1), r.charAt j, r.xAt (j - 1), r.xAt j⟩)) := by
    unfold Layout.clusterAt
    simp only [hr.ltr, Bool.false_eq_true, if_false]
    rw [hr.ltr] at hec
    rw [hec, show f + j - f = j by omega, e5 j hj]
    by_cases h0 : j = 0
    · subst h0
      have hs : r.charAt 0 = r.charStart := by
        by_cases hn : r.glyphs = []
        · rw [charAt_end r (by simp [hn]), hr.empty hn]
        · have hg := List.getElem?_eq_getElem (List.length_pos_iff.2 hn)
          have := hr.first _ hg
          unfold RunSpec.charAt
          rw [hg]; exact this
      have hp := e5 0 (Nat.zero_le _)
      simp only [Nat.mul_zero, Nat.add_zero] at hp
      simp only [Layout.ltrClusterStart, Layout.ltrClusterStartPos, Nat.add_zero, if_true, hp,
        Option.bind_eq_bind, Option.bind_some]
      exact ⟨_, rfl, .inl ⟨trivial, rfl, hs⟩⟩
    · have hsc : L.charIdx[f + j - 1]? = some (r.charAt (j - 1)) := by
        have := e4 (j - 1) (by omega)
        rwa [show f + (j - 1) = f + j - 1 by omega] at this
      have hsp : L.pos[2 * (f + k) + 2 * (f + j - 1 - f)]? = some (r.xAt (j - 1)) := by
        rw [show f + j - 1 - f = j - 1 by omega]
        exact e5 (j - 1) (by omega)
      simp only [Layout.ltrClusterStart, Layout.ltrClusterStartPos, show ¬ f + j = f by omega, if_false, hsc, hsp,
        Option.bind_eq_bind, Option.bind_some]
      exact ⟨_, rfl, .inr ⟨by omega, rfl⟩⟩
  obtain ⟨c, hc1, hc2⟩ := hcl
  have hpk := pickInClusterR_spec h (run := ⟨r.font, f + r.glyphs.length, r.charStart, r.charEnd, r.charEndOffset, r.rtl⟩)
    h1 h2 h3 follow c x
  have hfind : L.findInRunR f32Round follow k firstRun lastRun x = L.pickInClusterR f32Round follow
      ⟨r.font, f + r.glyphs.length, r.charStart, r.charEnd, r.charEndOffset, r.rtl⟩ k firstRun lastRun c x := by
    unfold Layout.findInRunR
    simp only [e1, e2, e3, Option.bind_eq_bind, Option.bind_some, hu0, b1, hc1]
  rw [hfind]
  rcases hc2 with ⟨h0, hs, he⟩ | ⟨h0, rfl⟩
  · obtain ⟨a, ha, haff⟩ := hpk.1 (by rw [hs, he])
    exact ⟨j, _, a, hj, hlt, hge, ha, .inl ⟨h0, hs⟩, fun hb => ⟨fun _ => haff hb, fun h0' => by omega⟩⟩
  · by_cases hcc : r.charAt (j - 1) = r.charAt j
    · obtain ⟨a, ha, haff⟩ := hpk.1 hcc
      refine ⟨j, _, a, hj, hlt, hge, ha, .inr (.inl ⟨h0, hcc, rfl⟩), fun hb => ⟨fun _ => haff hb, fun _ _ _ he => ?_⟩⟩
      have := charAt_below hr.below (show j - 1 < r.glyphs.length by omega)
      simp only at he
      omega
    · have hclt : r.charAt (j - 1) < r.charAt j := by
        have : r.charAt (j - 1) ≤ r.charAt j := by
          by_cases hjn : j = r.glyphs.length
          · rw [charAt_end r (show r.glyphs.length ≤ j by omega)]
            exact Nat.le_of_lt (charAt_below hr.below (by omega))
          · exact charAt_sorted hr (by omega) (by omega)
        omega
      obtain ⟨ch, p1, p2⟩ := pickCharR_ltr hf hclt (by omega) (hxc (j - 1) (by omega)) (hxc j hj) (hmono (j - 1) j (by omega) hj) hge
        (r.charAt j - r.charAt (j - 1) + 1) (r.charAt (j - 1)) (Nat.le_refl _) hclt (by omega)
        (by rw [clusterPosR_start _ _ (hxc (j - 1) (by omega)) (hxc j hj)]; exact hlt _ (by omega)) (.inl rfl)
      rw [clusterPosR_start _ _ (hxc (j - 1) (by omega)) (hxc j hj)] at p1
      obtain ⟨a, ha, haff⟩ := hpk.2 ch hcc (by simp only [hr.ltr]; exact p1)
      refine ⟨j, _, a, hj, hlt, hge, ha, .inr (.inr ⟨h0, hclt, p2⟩), fun hb => ?_⟩
      obtain ⟨q1, q2⟩ := haff hr.ltr hb
      exact ⟨fun hc => q1 (by rcases hc with hc | hc; exact hc; omega), fun _ => q2⟩

/-- The result in a right-to-left run. -/
theorem findInRunR_rtl {L : Layout φ} {ls : List (LineSpec φ)} {rs : List (RunSpec φ)} {y : Rat}
    (h : Stores L ls rs y) (hcr : ∀ x ∈ L.pos, Crisp x) (hsize : L.pos.length < 4294967296) {k firstRun lastRun : Nat} {r : RunSpec φ}
    (hk : (allRuns ls ++ rs)[k]? = some r) (hr : RtlRun r) (hend : r.charEnd < 2147483648)
    (h1 : firstRun ≤ k) (h2 : k < lastRun) (h3 : lastRun ≤ (allRuns ls ++ rs).length)
    {follow : Layout.Following} {B : Nat → Prop} (hf : FollowsBoundaries follow B) {x : Rat} (hx : x ≤ r.endX) :
    ∃ j p a, j ≤ r.glyphs.length ∧ (∀ i, i < j → r.xAt i < x) ∧ x ≤ r.xAt j ∧
      L.findInRunR f32Round follow k firstRun lastRun x = some (p, a) ∧
      ((j = 0 ∧ p = r.charEnd) ∨
        (0 < j ∧ r.charAt (j - 1) = r.rtlEnd j ∧ p = r.charAt (j - 1)) ∨
        (0 < j ∧ r.charAt (j - 1) < r.rtlEnd j ∧ PickedR follow (r.charAt (j - 1)) (r.rtlEnd j) x
          (clusterPosR (r.charAt (j - 1)) (r.rtlEnd j) (r.xAt j) (r.xAt (j - 1))) p)) := by
  obtain ⟨f, e1, e2, e3, e4, e5, e6⟩ := h.read hk
  have hmono : ∀ i j, i ≤ j → j ≤ r.glyphs.length → r.xAt i ≤ r.xAt j := fun i j hij hj =>
    mono_of_step (x := r.xAt) (fun i hi => xAt_step hr.mono hi) hij hj
  obtain ⟨j, b1, b2, b3, b4, b5⟩ := binarySearch_spec
    (fun i => (L.pos[2 * (f + k) + 2 * i]?).map fun p => decide (p < x)) (fun i => decide (r.xAt i < x))
    r.glyphs.length 0
    (by
      intro i _ hi2
      simp only [e5 i (by omega), Option.map_some])
    (by
      intro i j _ hij hj hp
      simp only [decide_eq_true_eq] at hp ⊢
      exact lt_of_le_of_lt (hmono i j hij (by omega)) hp)
  have hj : j ≤ r.glyphs.length := by omega
  have hxc : ∀ i, i ≤ r.glyphs.length → Crisp (r.xAt i) := fun i hi => hcr _ (List.mem_of_getElem? (e5 i hi))
  have hlt : ∀ i, i < j → r.xAt i < x := by
    intro i hi
    simpa using b4 i (by omega) hi
  have hge : x ≤ r.xAt j := by
    by_cases hn : j = r.glyphs.length
    · rw [hn]
      have : r.xAt r.glyphs.length = r.endX := by unfold RunSpec.xAt RunSpec.xs; simp
      rw [this]; exact hx
    · simpa using b5 j (Nat.le_refl _) (by omega)
  have hu0 : u32 (((f + r.glyphs.length : Nat) : Int) - f) = r.glyphs.length := by
    rw [u32_sub (by omega) (by omega)]; omega
  have hcl : ∃ c, L.clusterAt ⟨r.font, f + r.glyphs.length, r.charStart, r.charEnd, r.charEndOffset, r.rtl⟩ f
      (2 * (f + k)) (f + j) = some c ∧
      ((j = 0 ∧ c.startChar = r.charEnd ∧ c.endChar = r.charEnd) ∨
       (0 < j ∧ c = ⟨r.charAt (j - 1), r.rtlEnd j, r.xAt j, r.xAt (j - 1)⟩)) := by
    unfold Layout.clusterAt
    simp only [hr.rtl, if_true]
    by_cases h0 : j = 0
    · subst h0
      have hp := e5 0 (Nat.zero_le _)
      simp only [Nat.mul_zero, Nat.add_zero] at hp
      simp only [Nat.add_zero, if_true, hp, Option.map_some]
      exact ⟨_, rfl, .inl ⟨trivial, rfl, rfl⟩⟩
    · have hsc : L.charIdx[f + j - 1]? = some (r.charAt (j - 1)) := by
        have := e4 (j - 1) (by omega)
        rwa [show f + (j - 1) = f + j - 1 by omega] at this
      have hep : L.pos[2 * (f + k) + 2 * (f + j - 1 - f)]? = some (r.xAt (j - 1)) := by
        rw [show f + j - 1 - f = j - 1 by omega]
        exact e5 (j - 1) (by omega)
      have hec : L.rtlClusterEnd ⟨r.font, f + r.glyphs.length, r.charStart, r.charEnd, r.charEndOffset, true⟩ f (f + j) =
          some (r.rtlEnd j) := by
        unfold Layout.rtlClusterEnd RunSpec.rtlEnd
        by_cases h1 : j = 1
        · rw [if_pos (by omega), if_pos h1]
        · rw [if_neg (by omega), if_neg h1]
          have := e4 (j - 2) (by omega)
          rwa [show f + (j - 2) = f + j - 2 by omega] at this
      have hsp : L.pos[2 * (f + k) + 2 * (f + j - f)]? = some (r.xAt j) := by
        rw [show f + j - f = j by omega]; exact e5 j hj
      simp only [show ¬ f + j = f by omega, if_false, hsc, hec, hsp, hep, Option.bind_eq_bind, Option.bind_some]
      exact ⟨_, rfl, .inr ⟨by omega, rfl⟩⟩
  obtain ⟨c, hc1, hc2⟩ := hcl
  have hpk := pickInClusterR_spec h (run := ⟨r.font, f + r.glyphs.length, r.charStart, r.charEnd, r.charEndOffset, r.rtl⟩)
    h1 h2 h3 follow c x
  have hfind : L.findInRunR f32Round follow k firstRun lastRun x = L.pickInClusterR f32Round follow
      ⟨r.font, f + r.glyphs.length, r.charStart, r.charEnd, r.charEndOffset, r.rtl⟩ k firstRun lastRun c x := by
    unfold Layout.findInRunR
    simp only [e1, e2, e3, Option.bind_eq_bind, Option.bind_some, hu0, b1, hc1]
  rw [hfind]
  rcases hc2 with ⟨h0, hs, he⟩ | ⟨h0, rfl⟩
  · obtain ⟨a, ha, _⟩ := hpk.1 (by rw [hs, he])
    exact ⟨j, _, a, hj, hlt, hge, ha, .inl ⟨h0, hs⟩⟩
  · by_cases hcc : r.charAt (j - 1) = r.rtlEnd j
    · obtain ⟨a, ha, _⟩ := hpk.1 hcc
      exact ⟨j, _, a, hj, hlt, hge, ha, .inr (.inl ⟨h0, hcc, rfl⟩)⟩
    · have hb : r.charAt (j - 1) ≤ r.rtlEnd j ∧ r.rtlEnd j ≤ r.charEnd := by
        unfold RunSpec.rtlEnd
        split
        · exact ⟨Nat.le_of_lt (charAt_below hr.below (by omega)), Nat.le_refl _⟩
        · exact ⟨charAt_anti hr (by omega) (by omega), Nat.le_of_lt (charAt_below hr.below (by omega))⟩
      have hclt : r.charAt (j - 1) < r.rtlEnd j := by omega
      obtain ⟨ch, p1, p2⟩ := pickCharR_rtl hf hclt (by omega) (hxc j hj) (hxc (j - 1) (by omega)) (hlt (j - 1) (by omega))
        (r.rtlEnd j - r.charAt (j - 1) + 1) (r.charAt (j - 1)) (Nat.le_refl _) hclt (by omega)
        (sp := r.xAt j) (by rw [clusterPosR_start _ _ (hxc j hj) (hxc (j - 1) (by omega))]; exact hge) (.inl rfl)
      rw [clusterPosR_start _ _ (hxc j hj) (hxc (j - 1) (by omega))] at p1
      obtain ⟨a, ha, _⟩ := hpk.2 ch hcc (by simp only [hr.rtl]; exact p1)
      exact ⟨j, _, a, hj, hlt, hge, ha, .inr (.inr ⟨h0, hclt, p2⟩)⟩

/-- How `find_closest_cursor_position` chooses the run. -/
theorem findClosestR_run {L : Layout φ} {ls : List (LineSpec φ)} {y : Rat} (h : Stores L ls [] y)
    (hcl : CrispLayout L) (hne : ∀ l ∈ ls, l.runs ≠ []) (hsize : L.pos.length < 4294967296) {m : Nat} {l : LineSpec φ}
    (hl : ls[m]? = some l) (hp : ProperLine l) {W : Rat} (hW : Crisp W) (al : XAlignment) (follow : Layout.Following) (cx : Rat) :
    ∃ j, j ≤ l.runs.length ∧
      (∀ i r, i < j → l.runs[i]? = some r → r.endX < f32Round (cx - alignedX W l.width al)) ∧
      (∀ r, l.runs[j]? = some r → f32Round (cx - alignedX W l.width al) ≤ r.endX) ∧
      (j = l.runs.length → ∃ r, l.runs[j - 1]? = some r ∧
        L.findClosestR f32Round W al follow m cx = some (if r.rtl then r.charStart else r.charEnd, .opposite)) ∧
      (j < l.runs.length → L.findClosestR f32Round W al follow m cx =
        L.findInRunR f32Round follow ((allRuns (ls.take m)).length + j) (allRuns (ls.take m)).length
          (allRuns (ls.take (m + 1))).length (f32Round (cx - alignedX W l.width al))) := by
  have hm := getElem?_lt hl
  generalize hX : f32Round (cx - alignedX W l.width al) = X
  generalize hF : (allRuns (ls.take m)).length = F
  have hsucc : (allRuns (ls.take (m + 1))).length = F + l.runs.length := by
    rw [allRuns_take_succ hl, List.length_append, hF]
  have htot := allRuns_take_le ls (m + 1)
  have hpos := List.length_pos_iff.2 (hne l (List.mem_of_getElem? hl))
  have hget : ∀ i, F ≤ i → i < F + l.runs.length → ∃ r, (allRuns ls)[i]? = some r ∧ l.runs[i - F]? = some r := by
    intro i hi hi2
    have := runOfLine_mem (k := i) hl (by omega) (by omega)
    rwa [hF] at this
  have hcount : (allRuns ls).length < 4294967296 := by
    have := h.pos_length
    simp at this
    omega
  obtain ⟨k, b1, b2, b3, b4, b5⟩ := binarySearch_spec
    (fun i => (L.runs[i]?).bind fun r => (L.pos[2 * (r.glyphEnd + i)]?).map fun p => decide (p < X))
    (fun i => ((l.runs[i - F]?).map fun r => decide (r.endX < X)).getD false) l.runs.length F
    (by
      intro i hi hi2
      obtain ⟨r, g1, g2⟩ := hget i hi hi2
      obtain ⟨f, e1, e2, e3, e4, e5, e6⟩ := h.read (k := i) (r := r) (by rw [List.append_nil]; exact g1)
      have e7 := e5 r.glyphs.length (Nat.le_refl _)
      rw [show 2 * (f + i) + 2 * r.glyphs.length = 2 * (f + r.glyphs.length + i) by omega, xAt_end] at e7
      simp only [e3, Option.bind_some, e7, Option.map_some, g2, Option.getD_some])
    (by
      intro i j hi hij hj hq
      obtain ⟨r, _, g2⟩ := hget i hi (by omega)
      obtain ⟨s, _, g4⟩ := hget j (by omega) hj
      simp only [g2, g4, Option.map_some, Option.getD_some, decide_eq_true_eq] at hq ⊢
      exact lt_of_le_of_lt (hp.end_mono (show i - F ≤ j - F by omega) g2 g4) hq)
  have hu : u32 (((allRuns (ls.take (m + 1))).length : Int) - F) = l.runs.length := by
    rw [u32_sub (by omega) (by omega)]; omega
  have hempty : ¬ L.lines.isEmpty = true := by
    have := h.lineCount
    cases hL : L.lines with
    | nil => rw [hL] at this; simp at this; omega
    | cons _ _ => simp
  have hfirst := firstRunIndex_eq h hm
  rw [hF] at hfirst
  refine ⟨k - F, by omega, ?_, ?_, ?_, ?_⟩
  · intro i r hi hr
    have := b4 (F + i) (by omega) (by omega)
    simpa [hr] using this
  · intro r hr
    have := b5 k (Nat.le_refl _) (by have := getElem?_lt hr; omega)
    simpa [hr] using this
  · intro hk
    obtain ⟨r, g1, g2⟩ := hget (F + l.runs.length - 1) (by omega) (by omega)
    refine ⟨r, by rw [hk]; rwa [show F + l.runs.length - 1 - F = l.runs.length - 1 by omega] at g2, ?_⟩
    unfold Layout.findClosestR
    rw [if_neg hempty]
    simp only [(lineXStartR_eq hcl hW m al).1, lineXStart_eq h hl, hfirst, h.lines m l hl, Option.bind_eq_bind, Option.bind_some, hX, hu, b1]
    rw [if_pos (by omega), hsucc, h.runs _ r (by rw [List.append_nil]; exact g1)]
    rfl
  · intro hk
    unfold Layout.findClosestR
    rw [if_neg hempty]
    simp only [(lineXStartR_eq hcl hW m al).1, lineXStart_eq h hl, hfirst, h.lines m l hl, Option.bind_eq_bind, Option.bind_some, hX, hu, b1]
    rw [if_neg (by omega), show F + (k - F) = k by omega]

end RichText
