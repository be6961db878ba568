import Verif.Proof.GlyphOffset
import Verif.Proof.CursorRun
/-! `find_closest_cursor_position`. -/
namespace RichText
variable {φ : Type _}

/-- `follow` is the "next boundary" function of the set of boundaries `B`, all of
them text positions below 2^31. -/
structure FollowsBoundaries (follow : Layout.Following) (B : Nat → Prop) : Prop where
  /-- the result is the next boundary -/
  next : ∀ k n, follow k = some n → k < n ∧ B n ∧ ∀ b, k < b → B b → n ≤ b
  /-- no result: no boundary follows -/
  done : ∀ k b, follow k = none → k < b → ¬ B b
  /-- text size -/
  size : ∀ b, B b → b < 2147483648

/-- Position of a boundary in a cluster. -/
def clusterPos (sc ec : Nat) (sp ep : Rat) (b : Nat) : Rat :=
  sp + (ep - sp) * (((b : Rat) - sc) / ((ec : Rat) - sc))

theorem posOf_eq {sc ec b : Nat} {sp ep : Rat} (h1 : sc < ec) (h2 : sc ≤ b) (h3 : b < 4294967296)
    (h4 : ec < 4294967296) : Layout.Cluster.posOf ⟨sc, ec, sp, ep⟩ b = clusterPos sc ec sp ep b := by
  unfold Layout.Cluster.posOf clusterPos
  simp only
  rw [u32_sub h2 h3, u32_sub (by omega) h4, Nat.cast_sub h2, Nat.cast_sub (by omega)]
  ring

theorem clusterPos_start (sc ec : Nat) (sp ep : Rat) : clusterPos sc ec sp ep sc = sp := by
  unfold clusterPos; simp

theorem clusterPos_end {sc ec : Nat} (h : sc < ec) (sp ep : Rat) : clusterPos sc ec sp ep ec = ep := by
  unfold clusterPos
  have : (ec : Rat) - sc ≠ 0 := by
    have : (sc : Rat) < ec := by exact_mod_cast h
    have : (0 : Rat) < (ec : Rat) - sc := by linarith
    exact ne_of_gt this
  rw [div_self this]
  ring

theorem clusterPos_mono {sc ec : Nat} (h : sc < ec) {sp ep : Rat} (hp : sp ≤ ep) {a b : Nat} (hab : a ≤ b) :
    clusterPos sc ec sp ep a ≤ clusterPos sc ec sp ep b := by
  unfold clusterPos
  have h0 : (0 : Rat) < (ec : Rat) - sc := by
    have : (sc : Rat) < ec := by exact_mod_cast h
    linarith
  have h1 : (a : Rat) - sc ≤ (b : Rat) - sc := by
    have : (a : Rat) ≤ b := by exact_mod_cast hab
    linarith
  have h2 := (div_le_div_iff_of_pos_right h0).2 h1
  have := mul_le_mul_of_nonneg_left h2 (show 0 ≤ ep - sp by linarith)
  linarith

theorem clusterPos_anti {sc ec : Nat} (h : sc < ec) {sp ep : Rat} (hp : ep ≤ sp) {a b : Nat} (hab : a ≤ b) :
    clusterPos sc ec sp ep b ≤ clusterPos sc ec sp ep a := by
  have e : ∀ c, clusterPos sc ec sp ep c = - clusterPos sc ec (-sp) (-ep) c := by
    intro c; unfold clusterPos; ring
  rw [e a, e b]
  have := clusterPos_mono h (show -sp ≤ -ep by linarith) hab
  linarith

/-- The text end marker is never nearer. -/
theorem clusterPos_done {sc ec a : Nat} (h : sc < ec) (hec : ec < 2147483648) (ha : sc ≤ a) {sp ep x : Rat}
    (hp : sp ≤ ep) (hx : x ≤ ep) (_ : clusterPos sc ec sp ep a < x) :
    ¬ (clusterPos sc ec sp ep 4294967295 - x < x - clusterPos sc ec sp ep a) := by
  have h1 := clusterPos_mono h hp ha
  rw [clusterPos_start] at h1
  have h2 := clusterPos_mono h hp (show 2 * ec - sc ≤ 4294967295 by omega)
  have h3 : clusterPos sc ec sp ep (2 * ec - sc) = 2 * ep - sp := by
    unfold clusterPos
    rw [Nat.cast_sub (by omega)]
    have h0 : (ec : Rat) - sc ≠ 0 := by
      have : (sc : Rat) < ec := by exact_mod_cast h
      have : (0 : Rat) < (ec : Rat) - sc := by linarith
      exact ne_of_gt this
    have : (((2 * ec : Nat) : Rat) - sc - sc) / ((ec : Rat) - sc) = 2 := by
      rw [div_eq_iff h0]; push_cast; ring
    rw [this]; ring
  rw [h3] at h2
  intro hc
  linarith

/-- The character picked in a cluster `[sc, ec)` that is drawn from `sp` to `ep`,
for `x` in between.  `P` is the position of a character. -/
structure Picked (follow : Layout.Following) (sc ec : Nat) (x : Rat) (P : Nat → Rat) (ch : Nat) : Prop where
  /-- two neighbours enclose `x`, the nearer one is taken -/
  near : ∃ a, sc ≤ a ∧ a < ec ∧ (a = sc ∨ ∃ c, sc ≤ c ∧ follow c = some a) ∧
    ((ch = a ∧ (∀ b, follow a = some b → |P a - x| ≤ |P b - x|)) ∨
      (follow a = some ch ∧ |P ch - x| ≤ |P a - x|)) ∧
    (∀ b, follow a = some b → (P a ≤ x ∧ x ≤ P b) ∨ (P b ≤ x ∧ x ≤ P a))

theorem pickChar_ltr {follow : Layout.Following} {B : Nat → Prop} (hf : FollowsBoundaries follow B)
    {sc ec : Nat} (h : sc < ec) (hec : ec < 2147483648) {sp ep x : Rat} (hp : sp ≤ ep) (hx2 : x ≤ ep) (fuel : Nat) :
    ∀ curr, sc ≤ curr → curr < ec → ec - curr < fuel → clusterPos sc ec sp ep curr < x →
      (curr = sc ∨ ∃ c, sc ≤ c ∧ follow c = some curr) →
      ∃ ch, Layout.pickChar follow ⟨sc, ec, sp, ep⟩ false x fuel curr (clusterPos sc ec sp ep curr) = some (ch, true) ∧
        Picked follow sc ec x (clusterPos sc ec sp ep) ch := by
  induction fuel with
  | zero => intro curr _ _ h3; omega
  | succ fuel ih =>
    intro curr h1 h2 h3 h4 h5
    have hle : ∀ b, ec ≤ b → x ≤ clusterPos sc ec sp ep b := by
      intro b hb
      have := clusterPos_mono h hp hb
      rw [clusterPos_end h] at this
      linarith
    rw [Layout.pickChar]
    cases hn : follow curr with
    | none =>
      have e0 : Layout.nextChar32 none = 4294967295 := rfl
      have e := posOf_eq (b := 4294967295) (sp := sp) (ep := ep) h (by omega) (by omega) (show ec < 4294967296 by omega)
      have h6 := hle 4294967295 (by omega)
      have h7 := clusterPos_done h hec h1 hp hx2 h4
      simp only [e0, e, Bool.false_and, Bool.false_eq_true, if_false, Bool.not_false, Bool.true_and,
        h4, h6, h7, decide_true, if_true]
      refine ⟨curr, rfl, ⟨curr, h1, h2, h5, .inl ⟨rfl, ?_⟩, ?_⟩⟩
      · intro b hb; rw [hn] at hb; cases hb
      · intro b hb; rw [hn] at hb; cases hb
    | some n =>
      obtain ⟨f1, f2, f3⟩ := hf.next curr n hn
      have f4 := hf.size n f2
      have e0 : Layout.nextChar32 (some n) = n := rfl
      have e := posOf_eq (b := n) (sp := sp) (ep := ep) h (by omega) (by omega) (show ec < 4294967296 by omega)
      simp only [e0, e, Bool.false_and, Bool.false_eq_true, if_false, Bool.not_false, Bool.true_and, h4, decide_true]
      by_cases h6 : x ≤ clusterPos sc ec sp ep n
      · simp only [h6, decide_true, if_true]
        by_cases h7 : clusterPos sc ec sp ep n - x < x - clusterPos sc ec sp ep curr
        · refine ⟨n, by rw [if_pos h7], ⟨curr, h1, h2, h5, .inr ⟨hn, ?_⟩, ?_⟩⟩
          · rw [abs_of_nonneg (by linarith), abs_of_nonpos (by linarith)]; linarith
          · intro b hb; rw [hn] at hb; cases hb; exact .inl ⟨le_of_lt h4, h6⟩
        · refine ⟨curr, by rw [if_neg h7], ⟨curr, h1, h2, h5, .inl ⟨rfl, ?_⟩, ?_⟩⟩
          · intro b hb; rw [hn] at hb; cases hb
            rw [abs_of_nonpos (by linarith), abs_of_nonneg (by linarith)]; linarith
          · intro b hb; rw [hn] at hb; cases hb; exact .inl ⟨le_of_lt h4, h6⟩
      · have h8 : ¬ n ≥ ec := fun hc => h6 (hle n hc)
        simp only [h6, decide_false, Bool.false_eq_true, if_false, h8]
        exact ih n (by omega) (by omega) (by omega) (by linarith) (.inr ⟨curr, h1, hn⟩)

theorem pickChar_rtl {follow : Layout.Following} {B : Nat → Prop} (hf : FollowsBoundaries follow B)
    {sc ec : Nat} (h : sc < ec) (hec : ec < 2147483648) {sp ep x : Rat} (hx1 : ep < x) (fuel : Nat) :
    ∀ curr, sc ≤ curr → curr < ec → ec - curr < fuel → x ≤ clusterPos sc ec sp ep curr →
      (curr = sc ∨ ∃ c, sc ≤ c ∧ follow c = some curr) →
      ∃ ch, Layout.pickChar follow ⟨sc, ec, sp, ep⟩ true x fuel curr (clusterPos sc ec sp ep curr) = some (ch, true) ∧
        Picked follow sc ec x (clusterPos sc ec sp ep) ch := by
  induction fuel with
  | zero => intro curr _ _ h3; omega
  | succ fuel ih =>
    intro curr h1 h2 h3 h4 h5
    have hp : ep ≤ sp := by
      by_contra hc
      have := clusterPos_mono h (show sp ≤ ep by linarith) (show curr ≤ ec by omega)
      rw [clusterPos_end h] at this
      linarith
    have hle : ∀ b, ec ≤ b → clusterPos sc ec sp ep b < x := by
      intro b hb
      have := clusterPos_anti h hp hb
      rw [clusterPos_end h] at this
      linarith
    rw [Layout.pickChar]
    cases hn : follow curr with
    | none =>
      have e0 : Layout.nextChar32 none = 4294967295 := rfl
      have e := posOf_eq (b := 4294967295) (sp := sp) (ep := ep) h (by omega) (by omega) (show ec < 4294967296 by omega)
      have h6 := hle 4294967295 (by omega)
      have h7 : ¬ (x - clusterPos sc ec sp ep 4294967295 < clusterPos sc ec sp ep curr - x) := by
        have en : ∀ c, clusterPos sc ec sp ep c = - clusterPos sc ec (-sp) (-ep) c := by
          intro c; unfold clusterPos; ring
        intro hc
        have g1 := clusterPos_anti h hp h1
        rw [clusterPos_start] at g1
        have g2 := clusterPos_anti h hp (show 2 * ec - sc ≤ 4294967295 by omega)
        have g3 : clusterPos sc ec sp ep (2 * ec - sc) = 2 * ep - sp := by
          unfold clusterPos
          rw [Nat.cast_sub (by omega)]
          have h0 : (ec : Rat) - sc ≠ 0 := by
            have : (sc : Rat) < ec := by exact_mod_cast h
            have : (0 : Rat) < (ec : Rat) - sc := by linarith
            exact ne_of_gt this
          have : (((2 * ec : Nat) : Rat) - sc - sc) / ((ec : Rat) - sc) = 2 := by
            rw [div_eq_iff h0]; push_cast; ring
          rw [this]; ring
        linarith
      simp only [e0, e, Bool.true_and, h4, h6, h7, decide_true, if_true, if_false]
      refine ⟨curr, rfl, ⟨curr, h1, h2, h5, .inl ⟨rfl, ?_⟩, ?_⟩⟩
      · intro b hb; rw [hn] at hb; cases hb
      · intro b hb; rw [hn] at hb; cases hb
    | some n =>
      obtain ⟨f1, f2, f3⟩ := hf.next curr n hn
      have f4 := hf.size n f2
      have e0 : Layout.nextChar32 (some n) = n := rfl
      have e := posOf_eq (b := n) (sp := sp) (ep := ep) h (by omega) (by omega) (show ec < 4294967296 by omega)
      simp only [e0, e, Bool.true_and, h4, decide_true, Bool.and_true]
      by_cases h6 : clusterPos sc ec sp ep n < x
      · simp only [h6, decide_true, if_true]
        by_cases h7 : x - clusterPos sc ec sp ep n < clusterPos sc ec sp ep curr - x
        · refine ⟨n, by rw [if_pos h7], ⟨curr, h1, h2, h5, .inr ⟨hn, ?_⟩, ?_⟩⟩
          · rw [abs_of_nonpos (by linarith), abs_of_nonneg (by linarith)]; linarith
          · intro b hb; rw [hn] at hb; cases hb; exact .inr ⟨le_of_lt h6, h4⟩
        · refine ⟨curr, by rw [if_neg h7], ⟨curr, h1, h2, h5, .inl ⟨rfl, ?_⟩, ?_⟩⟩
          · intro b hb; rw [hn] at hb; cases hb
            rw [abs_of_nonneg (by linarith), abs_of_nonpos (by linarith)]; linarith
          · intro b hb; rw [hn] at hb; cases hb; exact .inr ⟨le_of_lt h6, h4⟩
      · have h8 : ¬ n ≥ ec := fun hc => h6 (hle n hc)
        simp only [h6, decide_false, Bool.false_eq_true, if_false, Bool.not_true, Bool.false_and, h8]
        exact ih n (by omega) (by omega) (by omega) (by linarith) (.inr ⟨curr, h1, hn⟩)

/-- A picked character is in the cluster if the cluster ends at or before a
boundary `e`. -/
theorem Picked.range {follow : Layout.Following} {B : Nat → Prop} (hf : FollowsBoundaries follow B) {sc ec e : Nat}
    {x : Rat} {P : Nat → Rat} {ch : Nat} (h : Picked follow sc ec x P ch) (he : ec ≤ e) (hB : B e) :
    sc ≤ ch ∧ ch ≤ e := by
  obtain ⟨a, h1, h2, _, h4, _⟩ := h.near
  rcases h4 with ⟨rfl, _⟩ | ⟨h4, _⟩
  · omega
  · obtain ⟨f1, _, f3⟩ := hf.next a ch h4
    have := f3 e (by omega) hB
    omega

/-- The picked character is the boundary nearest to `x`, if positions are
monotone in the character (in either direction) and the cluster starts at a
boundary. -/
theorem Picked.nearest {follow : Layout.Following} {B : Nat → Prop} (hf : FollowsBoundaries follow B) {sc ec : Nat}
    {x : Rat} {P : Nat → Rat} {ch : Nat} (h : Picked follow sc ec x P ch) (hs : B sc) (he : B ec)
    (hP : (∀ a b, a ≤ b → P a ≤ P b) ∨ (∀ a b, a ≤ b → P b ≤ P a)) :
    B ch ∧ ∀ b, B b → |P ch - x| ≤ |P b - x| := by
  obtain ⟨a, h1, h2, h3, h4, h5⟩ := h.near
  have hBa : B a := by
    rcases h3 with rfl | ⟨c, _, h3⟩
    · exact hs
    · exact (hf.next c a h3).2.1
  obtain ⟨n, hn⟩ : ∃ n, follow a = some n := by
    cases hn : follow a with
    | none => exact absurd he (hf.done a ec hn h2)
    | some n => exact ⟨n, rfl⟩
  obtain ⟨f1, f2, f3⟩ := hf.next a n hn
  have h6 := h5 n hn
  have hch : B ch ∧ |P ch - x| ≤ |P a - x| ∧ |P ch - x| ≤ |P n - x| := by
    rcases h4 with ⟨rfl, h4⟩ | ⟨h4, h7⟩
    · exact ⟨hBa, le_refl _, h4 n hn⟩
    · rw [hn] at h4; cases h4
      exact ⟨f2, h7, le_refl _⟩
  refine ⟨hch.1, ?_⟩
  intro b hb
  have hcase : b ≤ a ∨ n ≤ b := by
    by_contra hc
    have := f3 b (by omega) hb
    omega
  rcases hP with hP | hP
  · have hmono := hP a n (by omega)
    have h7 : P a ≤ x ∧ x ≤ P n := by
      rcases h6 with h6 | ⟨h6, h7⟩
      · exact h6
      · exact ⟨by linarith, by linarith⟩
    rcases hcase with hc | hc
    · have := hP b a hc
      refine le_trans hch.2.1 ?_
      rw [abs_of_nonpos (by linarith), abs_of_nonpos (by linarith)]; linarith
    · have := hP n b hc
      refine le_trans hch.2.2 ?_
      rw [abs_of_nonneg (by linarith), abs_of_nonneg (by linarith)]; linarith
  · have hmono := hP a n (by omega)
    have h7 : P n ≤ x ∧ x ≤ P a := by
      rcases h6 with ⟨h6, h7⟩ | h6
      · exact ⟨by linarith, by linarith⟩
      · exact h6
    rcases hcase with hc | hc
    · have := hP b a hc
      refine le_trans hch.2.1 ?_
      rw [abs_of_nonneg (by linarith), abs_of_nonneg (by linarith)]; linarith
    · have := hP n b hc
      refine le_trans hch.2.2 ?_
      rw [abs_of_nonpos (by linarith), abs_of_nonpos (by linarith)]; linarith

/-- What `pickInCluster` returns. -/
theorem pickInCluster_spec {L : Layout φ} {ls : List (LineSpec φ)} {rs : List (RunSpec φ)} {y : Rat}
    (h : Stores L ls rs y) {k firstRun lastRun : Nat} {run : VisualRun φ} (h1 : firstRun ≤ k) (h2 : k < lastRun)
    (h3 : lastRun ≤ (allRuns ls ++ rs).length) (follow : Layout.Following) (c : Layout.Cluster) (x : Rat) :
    (c.startChar = c.endChar →
      ∃ a, L.pickInCluster follow run k firstRun lastRun c x = some (c.startChar, a) ∧
        (L.firstGlyphAffinity k (decide (k = firstRun)) run.rtl = some false → a = .default)) ∧
    (∀ ch, c.startChar ≠ c.endChar → Layout.pickChar follow c run.rtl x (c.endChar - c.startChar + 1) c.startChar c.startPos =
      some (ch, true) → ∃ a, L.pickInCluster follow run k firstRun lastRun c x = some (ch, a) ∧
        (run.rtl = false → L.firstGlyphAffinity k (decide (k = firstRun)) run.rtl = some false →
          (ch ≠ run.charEnd → a = .default) ∧
          (k + 1 = lastRun → run.charEndOffset = 0 → ch = run.charEnd → a = .opposite))) := by
  have e1 : ∃ b, L.firstGlyphAffinity k (decide (k = firstRun)) run.rtl = some b := by
    unfold Layout.firstGlyphAffinity
    split
    · rename_i hc
      have : k ≠ firstRun := by
        intro e; simp [e] at hc
      rw [h.runs (k - 1) _ (List.getElem?_eq_getElem (by omega))]
      exact ⟨_, rfl⟩
    · exact ⟨_, rfl⟩
  have e2 : ∀ s, ∃ b, L.lastGlyphAffinity k s (decide (k = lastRun - 1)) run.rtl = some b := by
    intro s
    unfold Layout.lastGlyphAffinity
    split
    · exact ⟨_, rfl⟩
    · split
      · rename_i hc
        have : k ≠ lastRun - 1 := by
          intro e; simp [e] at hc
        rw [h.runs (k + 1) _ (List.getElem?_eq_getElem (by omega))]
        exact ⟨_, rfl⟩
      · exact ⟨_, rfl⟩
  obtain ⟨b1, e1⟩ := e1
  obtain ⟨b2, e2⟩ := e2 (decide (k = lastRun - 1) && run.charEndOffset == 0)
  unfold Layout.pickInCluster
  simp only [e1, e2, Option.bind_eq_bind, Option.bind_some]
  constructor
  · intro hc
    rw [if_pos hc]
    refine ⟨_, rfl, ?_⟩
    intro hb
    rw [Option.some.inj hb]
    rfl
  · intro ch hc hp
    rw [if_neg hc, hp]
    simp only
    split
    · rename_i hrtl
      exact ⟨_, rfl, fun hl => by rw [hrtl] at hl; cases hl⟩
    · refine ⟨_, rfl, ?_⟩
      intro hl hb
      have hb1 := Option.some.inj hb
      subst hb1
      constructor
      · intro hne
        simp [Layout.mkAffinity, hne]
      · intro hk h0 hce
        have hb2 : b2 = true := by
          have : decide (k = lastRun - 1) = true := by simp; omega
          rw [this, h0] at e2
          simp [Layout.lastGlyphAffinity] at e2
          exact e2
        simp [Layout.mkAffinity, hce, hb2]

/-- The result in a left-to-right run; `j` is the number of glyphs that start
before `x`. -/
theorem findInRun_ltr {L : Layout φ} {ls : List (LineSpec φ)} {rs : List (RunSpec φ)} {y : Rat}
    (h : Stores L ls rs y) (hsize : L.pos.length < 4294967296) {k firstRun lastRun : Nat} {r : RunSpec φ}
    (hk : (allRuns ls ++ rs)[k]? = some r) (hr : LtrRun r) (hend : r.charEnd < 2147483648)
    (h1 : firstRun ≤ k) (h2 : k < lastRun) (h3 : lastRun ≤ (allRuns ls ++ rs).length)
    {follow : Layout.Following} {B : Nat → Prop} (hf : FollowsBoundaries follow B) {x : Rat} (hx : x ≤ r.endX) :
    ∃ j p a, j ≤ r.glyphs.length ∧ (∀ i, i < j → r.xAt i < x) ∧ x ≤ r.xAt j ∧
      L.findInRun follow k firstRun lastRun x = some (p, a) ∧
      ((j = 0 ∧ p = r.charStart) ∨
        (0 < j ∧ r.charAt (j - 1) = r.charAt j ∧ p = r.charAt (j - 1)) ∨
        (0 < j ∧ r.charAt (j - 1) < r.charAt j ∧ Picked follow (r.charAt (j - 1)) (r.charAt j) x
          (clusterPos (r.charAt (j - 1)) (r.charAt j) (r.xAt (j - 1)) (r.xAt j)) p)) ∧
      (L.firstGlyphAffinity k (decide (k = firstRun)) r.rtl = some false →
        (p ≠ r.charEnd ∨ j = 0 → a = .default) ∧
        (0 < j → k + 1 = lastRun → r.charEndOffset = 0 → p = r.charEnd → a = .opposite)) := by
  obtain ⟨f, e1, e2, e3, e4, e5, e6⟩ := h.read hk
  have hmono : ∀ i j, i ≤ j → j ≤ r.glyphs.length → r.xAt i ≤ r.xAt j := fun i j hij hj =>
    mono_of_step (x := r.xAt) (fun i hi => xAt_step hr.mono hi) hij hj
  obtain ⟨j, b1, b2, b3, b4, b5⟩ := binarySearch_spec
    (fun i => (L.pos[2 * (f + k) + 2 * i]?).map fun p => decide (p < x)) (fun i => decide (r.xAt i < x))
    r.glyphs.length 0
    (by
      intro i _ hi2
      simp only [e5 i (by omega), Option.map_some])
    (by
      intro i j _ hij hj hp
      simp only [decide_eq_true_eq] at hp ⊢
      exact lt_of_le_of_lt (hmono i j hij (by omega)) hp)
  have hj : j ≤ r.glyphs.length := by omega
  have hlt : ∀ i, i < j → r.xAt i < x := by
    intro i hi
    simpa using b4 i (by omega) hi
  have hge : x ≤ r.xAt j := by
    by_cases hn : j = r.glyphs.length
    · rw [hn]
      have : r.xAt r.glyphs.length = r.endX := by unfold RunSpec.xAt RunSpec.xs; simp
      rw [this]; exact hx
    · simpa using b5 j (Nat.le_refl _) (by omega)
  have hu0 : u32 (((f + r.glyphs.length : Nat) : Int) - f) = r.glyphs.length := by
    rw [u32_sub (by omega) (by omega)]; omega
  have hle : r.charAt j ≤ r.charEnd := by
    by_cases hjn : j = r.glyphs.length
    · rw [charAt_end r (by omega)]
    · exact Nat.le_of_lt (charAt_below hr.below (by omega))
  have hec : L.ltrNextChar ⟨r.font, f + r.glyphs.length, r.charStart, r.charEnd, r.charEndOffset, r.rtl⟩ (f + j) =
      some (r.charAt j) := by
    unfold Layout.ltrNextChar
    simp only
    split
    · rw [charAt_end r (by omega)]
    · exact e4 j (by omega)
  have hcl : ∃ c, L.clusterAt ⟨r.font, f + r.glyphs.length, r.charStart, r.charEnd, r.charEndOffset, r.rtl⟩ f
      (2 * (f + k)) (f + j) = some c ∧
      ((j = 0 ∧ c.startChar = r.charStart ∧ c.endChar = r.charStart) ∨
       (0 < j ∧ c = ⟨r.charAt (j - 1), r.charAt j, r.xAt (j - 1), r.xAt j⟩)) := by
    unfold Layout.clusterAt
    simp only [hr.ltr, Bool.false_eq_true, if_false]
    rw [hr.ltr] at hec
    rw [hec, show f + j - f = j by omega, e5 j hj]
    by_cases h0 : j = 0
    · subst h0
      have hs : r.charAt 0 = r.charStart := by
        by_cases hn : r.glyphs = []
        · rw [charAt_end r (by simp [hn]), hr.empty hn]
        · have hg := List.getElem?_eq_getElem (List.length_pos_iff.2 hn)
          have := hr.first _ hg
          unfold RunSpec.charAt
          rw [hg]; exact this
      have hp := e5 0 (Nat.zero_le _)
      simp only [Nat.mul_zero, Nat.add_zero] at hp
      simp only [Layout.ltrClusterStart, Layout.ltrClusterStartPos, Nat.add_zero, if_true, hp,
        Option.bind_eq_bind, Option.bind_some]
      exact ⟨_, rfl, .inl ⟨trivial, rfl, hs⟩⟩
    · have hsc : L.charIdx[f + j - 1]? = some (r.charAt (j - 1)) := by
        have := e4 (j - 1) (by omega)
        rwa [show f + (j - 1) = f + j - 1 by omega] at this
      have hsp : L.pos[2 * (f + k) + 2 * (f + j - 1 - f)]? = some (r.xAt (j - 1)) := by
        rw [show f + j - 1 - f = j - 1 by omega]
        exact e5 (j - 1) (by omega)
      simp only [Layout.ltrClusterStart, Layout.ltrClusterStartPos, show ¬ f + j = f by omega, if_false, hsc, hsp,
        Option.bind_eq_bind, Option.bind_some]
      exact ⟨_, rfl, .inr ⟨by omega, rfl⟩⟩
  obtain ⟨c, hc1, hc2⟩ := hcl
  have hpk := pickInCluster_spec h (run := ⟨r.font, f + r.glyphs.length, r.charStart, r.charEnd, r.charEndOffset, r.rtl⟩)
    h1 h2 h3 follow c x
  have hfind : L.findInRun follow k firstRun lastRun x = L.pickInCluster follow
      ⟨r.font, f + r.glyphs.length, r.charStart, r.charEnd, r.charEndOffset, r.rtl⟩ k firstRun lastRun c x := by
    unfold Layout.findInRun
    simp only [e1, e2, e3, Option.bind_eq_bind, Option.bind_some, hu0, b1, hc1]
  rw [hfind]
  rcases hc2 with ⟨h0, hs, he⟩ | ⟨h0, rfl⟩
  · obtain ⟨a, ha, haff⟩ := hpk.1 (by rw [hs, he])
    exact ⟨j, _, a, hj, hlt, hge, ha, .inl ⟨h0, hs⟩, fun hb => ⟨fun _ => haff hb, fun h0' => by omega⟩⟩
  · by_cases hcc : r.charAt (j - 1) = r.charAt j
    · obtain ⟨a, ha, haff⟩ := hpk.1 hcc
      refine ⟨j, _, a, hj, hlt, hge, ha, .inr (.inl ⟨h0, hcc, rfl⟩), fun hb => ⟨fun _ => haff hb, fun _ _ _ he => ?_⟩⟩
      have := charAt_below hr.below (show j - 1 < r.glyphs.length by omega)
      simp only at he
      omega
    · have hclt : r.charAt (j - 1) < r.charAt j := by
        have : r.charAt (j - 1) ≤ r.charAt j := by
          by_cases hjn : j = r.glyphs.length
          · rw [charAt_end r (show r.glyphs.length ≤ j by omega)]
            exact Nat.le_of_lt (charAt_below hr.below (by omega))
          · exact charAt_sorted hr (by omega) (by omega)
        omega
      obtain ⟨ch, p1, p2⟩ := pickChar_ltr hf hclt (by omega) (hmono (j - 1) j (by omega) hj) hge
        (r.charAt j - r.charAt (j - 1) + 1) (r.charAt (j - 1)) (Nat.le_refl _) hclt (by omega)
        (by rw [clusterPos_start]; exact hlt _ (by omega)) (.inl rfl)
      rw [clusterPos_start] at p1
      obtain ⟨a, ha, haff⟩ := hpk.2 ch hcc (by simp only [hr.ltr]; exact p1)
      refine ⟨j, _, a, hj, hlt, hge, ha, .inr (.inr ⟨h0, hclt, p2⟩), fun hb => ?_⟩
      obtain ⟨q1, q2⟩ := haff hr.ltr hb
      exact ⟨fun hc => q1 (by rcases hc with hc | hc; exact hc; omega), fun _ => q2⟩

/-- The logical end of the cluster of glyph `j - 1` of a right-to-left run. -/
def RunSpec.rtlEnd (r : RunSpec φ) (j : Nat) : Nat := if j = 1 then r.charEnd else r.charAt (j - 2)

/-- The result in a right-to-left run. -/
theorem findInRun_rtl {L : Layout φ} {ls : List (LineSpec φ)} {rs : List (RunSpec φ)} {y : Rat}
    (h : Stores L ls rs y) (hsize : L.pos.length < 4294967296) {k firstRun lastRun : Nat} {r : RunSpec φ}
    (hk : (allRuns ls ++ rs)[k]? = some r) (hr : RtlRun r) (hend : r.charEnd < 2147483648)
    (h1 : firstRun ≤ k) (h2 : k < lastRun) (h3 : lastRun ≤ (allRuns ls ++ rs).length)
    {follow : Layout.Following} {B : Nat → Prop} (hf : FollowsBoundaries follow B) {x : Rat} (hx : x ≤ r.endX) :
    ∃ j p a, j ≤ r.glyphs.length ∧ (∀ i, i < j → r.xAt i < x) ∧ x ≤ r.xAt j ∧
      L.findInRun follow k firstRun lastRun x = some (p, a) ∧
      ((j = 0 ∧ p = r.charEnd) ∨
        (0 < j ∧ r.charAt (j - 1) = r.rtlEnd j ∧ p = r.charAt (j - 1)) ∨
        (0 < j ∧ r.charAt (j - 1) < r.rtlEnd j ∧ Picked follow (r.charAt (j - 1)) (r.rtlEnd j) x
          (clusterPos (r.charAt (j - 1)) (r.rtlEnd j) (r.xAt j) (r.xAt (j - 1))) p)) := by
  obtain ⟨f, e1, e2, e3, e4, e5, e6⟩ := h.read hk
  have hmono : ∀ i j, i ≤ j → j ≤ r.glyphs.length → r.xAt i ≤ r.xAt j := fun i j hij hj =>
    mono_of_step (x := r.xAt) (fun i hi => xAt_step hr.mono hi) hij hj
  obtain ⟨j, b1, b2, b3, b4, b5⟩ := binarySearch_spec
    (fun i => (L.pos[2 * (f + k) + 2 * i]?).map fun p => decide (p < x)) (fun i => decide (r.xAt i < x))
    r.glyphs.length 0
    (by
      intro i _ hi2
      simp only [e5 i (by omega), Option.map_some])
    (by
      intro i j _ hij hj hp
      simp only [decide_eq_true_eq] at hp ⊢
      exact lt_of_le_of_lt (hmono i j hij (by omega)) hp)
  have hj : j ≤ r.glyphs.length := by omega
  have hlt : ∀ i, i < j → r.xAt i < x := by
    intro i hi
    simpa using b4 i (by omega) hi
  have hge : x ≤ r.xAt j := by
    by_cases hn : j = r.glyphs.length
    · rw [hn]
      have : r.xAt r.glyphs.length = r.endX := by unfold RunSpec.xAt RunSpec.xs; simp
      rw [this]; exact hx
    · simpa using b5 j (Nat.le_refl _) (by omega)
  have hu0 : u32 (((f + r.glyphs.length : Nat) : Int) - f) = r.glyphs.length := by
    rw [u32_sub (by omega) (by omega)]; omega
  have hcl : ∃ c, L.clusterAt ⟨r.font, f + r.glyphs.length, r.charStart, r.charEnd, r.charEndOffset, r.rtl⟩ f
      (2 * (f + k)) (f + j) = some c ∧
      ((j = 0 ∧ c.startChar = r.charEnd ∧ c.endChar = r.charEnd) ∨
       (0 < j ∧ c = ⟨r.charAt (j - 1), r.rtlEnd j, r.xAt j, r.xAt (j - 1)⟩)) := by
    unfold Layout.clusterAt
    simp only [hr.rtl, if_true]
    by_cases h0 : j = 0
    · subst h0
      have hp := e5 0 (Nat.zero_le _)
      simp only [Nat.mul_zero, Nat.add_zero] at hp
      simp only [Nat.add_zero, if_true, hp, Option.map_some]
      exact ⟨_, rfl, .inl ⟨trivial, rfl, rfl⟩⟩
    · have hsc : L.charIdx[f + j - 1]? = some (r.charAt (j - 1)) := by
        have := e4 (j - 1) (by omega)
        rwa [show f + (j - 1) = f + j - 1 by omega] at this
      have hep : L.pos[2 * (f + k) + 2 * (f + j - 1 - f)]? = some (r.xAt (j - 1)) := by
        rw [show f + j - 1 - f = j - 1 by omega]
        exact e5 (j - 1) (by omega)
      have hec : L.rtlClusterEnd ⟨r.font, f + r.glyphs.length, r.charStart, r.charEnd, r.charEndOffset, true⟩ f (f + j) =
          some (r.rtlEnd j) := by
        unfold Layout.rtlClusterEnd RunSpec.rtlEnd
        by_cases h1 : j = 1
        · rw [if_pos (by omega), if_pos h1]
        · rw [if_neg (by omega), if_neg h1]
          have := e4 (j - 2) (by omega)
          rwa [show f + (j - 2) = f + j - 2 by omega] at this
      have hsp : L.pos[2 * (f + k) + 2 * (f + j - f)]? = some (r.xAt j) := by
        rw [show f + j - f = j by omega]; exact e5 j hj
      simp only [show ¬ f + j = f by omega, if_false, hsc, hec, hsp, hep, Option.bind_eq_bind, Option.bind_some]
      exact ⟨_, rfl, .inr ⟨by omega, rfl⟩⟩
  obtain ⟨c, hc1, hc2⟩ := hcl
  have hpk := pickInCluster_spec h (run := ⟨r.font, f + r.glyphs.length, r.charStart, r.charEnd, r.charEndOffset, r.rtl⟩)
    h1 h2 h3 follow c x
  have hfind : L.findInRun follow k firstRun lastRun x = L.pickInCluster follow
      ⟨r.font, f + r.glyphs.length, r.charStart, r.charEnd, r.charEndOffset, r.rtl⟩ k firstRun lastRun c x := by
    unfold Layout.findInRun
    simp only [e1, e2, e3, Option.bind_eq_bind, Option.bind_some, hu0, b1, hc1]
  rw [hfind]
  rcases hc2 with ⟨h0, hs, he⟩ | ⟨h0, rfl⟩
  · obtain ⟨a, ha, _⟩ := hpk.1 (by rw [hs, he])
    exact ⟨j, _, a, hj, hlt, hge, ha, .inl ⟨h0, hs⟩⟩
  · by_cases hcc : r.charAt (j - 1) = r.rtlEnd j
    · obtain ⟨a, ha, _⟩ := hpk.1 hcc
      exact ⟨j, _, a, hj, hlt, hge, ha, .inr (.inl ⟨h0, hcc, rfl⟩)⟩
    · have hb : r.charAt (j - 1) ≤ r.rtlEnd j ∧ r.rtlEnd j ≤ r.charEnd := by
        unfold RunSpec.rtlEnd
        split
        · exact ⟨Nat.le_of_lt (charAt_below hr.below (by omega)), Nat.le_refl _⟩
        · exact ⟨charAt_anti hr (by omega) (by omega), Nat.le_of_lt (charAt_below hr.below (by omega))⟩
      have hclt : r.charAt (j - 1) < r.rtlEnd j := by omega
      obtain ⟨ch, p1, p2⟩ := pickChar_rtl hf hclt (by omega) (hlt (j - 1) (by omega))
        (r.rtlEnd j - r.charAt (j - 1) + 1) (r.charAt (j - 1)) (Nat.le_refl _) hclt (by omega)
        (sp := r.xAt j) (by rw [clusterPos_start]; exact hge) (.inl rfl)
      rw [clusterPos_start] at p1
      obtain ⟨a, ha, _⟩ := hpk.2 ch hcc (by simp only [hr.rtl]; exact p1)
      exact ⟨j, _, a, hj, hlt, hge, ha, .inr (.inr ⟨h0, hclt, p2⟩)⟩

end RichText
