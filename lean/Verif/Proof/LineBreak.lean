import Verif.Spec.LineBreak
import Verif.Proof.BinarySearch
/-! Lemmas on tabs and line breaks (Model/LayoutBuilder.lean). -/
namespace RichText

/-! ### Sums -/

theorem sumRange_self (ws : List Int) (i : Nat) : sumRange ws i i = 0 := by simp [sumRange]

theorem sumRange_step (ws : List Int) {i k : Nat} {w : Int} (h : ws[i]? = some w) (hk : i < k) :
    sumRange ws i k = w + sumRange ws (i + 1) k := by
  obtain ⟨hi, he⟩ := List.getElem?_eq_some_iff.1 h
  unfold sumRange
  rw [List.drop_eq_getElem_cons hi, he]
  have : k - i = (k - (i + 1)) + 1 := by omega
  rw [this, List.take_succ_cons, List.sum_cons]

theorem sumRange_succ (ws : List Int) {i k : Nat} {w : Int} (hk : i ≤ k) (h : ws[k]? = some w) :
    sumRange ws i (k + 1) = sumRange ws i k + w := by
  unfold sumRange
  have : k + 1 - i = (k - i) + 1 := by omega
  rw [this, List.take_add_one, List.sum_append]
  have : (ws.drop i)[k - i]? = some w := by rw [List.getElem?_drop]; rw [← h]; congr 1; omega
  rw [this]; simp

theorem sumRange_congr {ws ws' : List Int} {i k : Nat}
    (h : ∀ j, i ≤ j → j < k → ws[j]? = ws'[j]?) : sumRange ws i k = sumRange ws' i k := by
  unfold sumRange
  congr 1
  apply List.ext_getElem?
  intro j
  simp only [List.getElem?_take, List.getElem?_drop]
  split
  · exact h (i + j) (by omega) (by omega)
  · rfl

/-! ### Tabs -/

theorem tabAdjust_spec {e : LineEnv} {ci : List Nat} {ws ws' : List Int} {i : Nat} {s v : Int}
    (h : tabAdjust e ci ws i s = some (v, ws')) :
    ∃ w c, ws[i]? = some w ∧ ci[i]? = some c ∧ ws' = ws.set i v ∧
      (e.isTab c = false → v = w) ∧ (e.isTab c = true → tabStop e w s = some v) := by
  unfold tabAdjust at h
  cases hw : ws[i]? with
  | none => simp [hw] at h
  | some w =>
    cases hc : ci[i]? with
    | none => simp [hw, hc] at h
    | some c =>
      simp only [hw, hc] at h
      refine ⟨w, c, rfl, rfl, ?_⟩
      by_cases ht : e.isTab c = true
      · simp only [ht, if_true, Option.map_eq_some_iff] at h
        obtain ⟨w', h1, h2⟩ := h
        simp only [Prod.mk.injEq] at h2
        obtain ⟨rfl, rfl⟩ := h2
        exact ⟨rfl, fun h' => (by rw [ht] at h'; cases h'), fun _ => h1⟩
      · simp only [ht, Bool.false_eq_true, if_false, Option.some.injEq, Prod.mk.injEq] at h
        obtain ⟨rfl, rfl⟩ := h
        refine ⟨?_, fun _ => rfl, fun h' => absurd h' ht⟩
        apply List.ext_getElem?
        intro k
        rw [List.getElem?_set]
        split
        · rename_i hk; subst hk
          rw [hw]; split
          · rfl
          · rename_i h2; exact absurd (List.getElem?_eq_some_iff.1 hw).1 h2
        · rfl

/-- Glyphs `i` to `j` of `ws'` are those of `ws` after tab adjustment with the
line width `s` before glyph `i`; the others are the same. -/
structure Processed (e : LineEnv) (ci : List Nat) (ws ws' : List Int) (i j : Nat) (s : Int) : Prop where
  len : ws'.length = ws.length
  out : ∀ k, k < i ∨ j ≤ k → ws'[k]? = ws[k]?
  step : ∀ k, i ≤ k → k < j → ∃ w c v, ws[k]? = some w ∧ ci[k]? = some c ∧ ws'[k]? = some v ∧
    (e.isTab c = false → v = w) ∧ (e.isTab c = true → tabStop e w (s + sumRange ws' i k) = some v)

theorem Processed.nil (e : LineEnv) (ci : List Nat) (ws : List Int) (i : Nat) (s : Int) :
    Processed e ci ws ws i i s :=
  ⟨rfl, fun _ _ => rfl, fun k h1 h2 => by omega⟩

theorem Processed.cons {e : LineEnv} {ci : List Nat} {ws ws1 ws' : List Int} {i j : Nat} {s v : Int}
    (h : tabAdjust e ci ws i s = some (v, ws1)) (hij : i + 1 ≤ j)
    (p : Processed e ci ws1 ws' (i + 1) j (s + v)) :
    Processed e ci ws ws' i j s ∧ ws'[i]? = some v := by
  obtain ⟨w, c, hw, hc, rfl, h1, h2⟩ := tabAdjust_spec h
  have hi : i < ws.length := (List.getElem?_eq_some_iff.1 hw).1
  have hv : ws'[i]? = some v := by
    rw [p.out i (by omega), List.getElem?_set_self hi]
  refine ⟨⟨by rw [p.len, List.length_set], ?_, ?_⟩, hv⟩
  · intro k hk
    rw [p.out k (by omega), List.getElem?_set_ne (by omega)]
  · intro k hik hkj
    rcases Nat.lt_or_ge i k with hlt | hge
    · obtain ⟨w', c', v', a1, a2, a3, a4, a5⟩ := p.step k hlt hkj
      rw [List.getElem?_set_ne (by omega)] at a1
      refine ⟨w', c', v', a1, a2, a3, a4, fun ht => ?_⟩
      rw [sumRange_step ws' hv hlt, ← a5 ht]
      congr 1; omega
    · obtain rfl : k = i := by omega
      exact ⟨w, c, v, hw, hc, hv, h1, fun ht => by rw [sumRange_self, Int.add_zero]; exact h2 ht⟩

theorem applyTabs_spec {e : LineEnv} {ci : List Nat} {ws' : List Int} (n : Nat) :
    ∀ (i : Nat) (s : Int) (ws : List Int), ci.length - i = n → i ≤ ci.length →
      applyTabs e ci i s ws = some ws' → Processed e ci ws ws' i ci.length s := by
  induction n with
  | zero =>
    intro i s ws hn hi h
    obtain rfl : i = ci.length := by omega
    unfold applyTabs at h
    simp only [Nat.lt_irrefl, if_false, Option.some.injEq] at h
    subst h; exact Processed.nil ..
  | succ n ih =>
    intro i s ws hn hi h
    unfold applyTabs at h
    rw [if_pos (by omega)] at h
    cases ht : tabAdjust e ci ws i s with
    | none => simp [ht] at h
    | some r =>
      simp only [ht] at h
      exact (Processed.cons ht (by omega) (ih _ _ _ (by omega) (by omega) h)).1

theorem adjustTabs_spec {e : LineEnv} {ci : List Nat} {ws' : List Int} :
    ∀ (n i : Nat) (s : Int) (ws : List Int),
      adjustTabs e ci n i s ws = some ws' → Processed e ci ws ws' i (i + n) s
  | 0, i, s, ws, h => by
    simp only [adjustTabs, Option.some.injEq] at h
    subst h; exact Processed.nil ..
  | n + 1, i, s, ws, h => by
    unfold adjustTabs at h
    cases ht : tabAdjust e ci ws i s with
    | none => simp [ht] at h
    | some r =>
      simp only [ht] at h
      have p := adjustTabs_spec n (i + 1) _ _ h
      rw [show i + 1 + n = i + (n + 1) by omega] at p
      exact (Processed.cons ht (by omega) p).1

/-- What the accumulating loop leaves. -/
structure Fitted (e : LineEnv) (ci : List Nat) (ws : List Int) (i : Nat) (s : Int) (f : Fit) : Prop where
  lo : i ≤ f.glyph
  hi : f.glyph ≤ ci.length
  mid : ∃ mid, Processed e ci ws mid i f.glyph s ∧ f.soFar = s + sumRange mid i f.glyph ∧
    (∀ k, i < k → k ≤ f.glyph → s + sumRange mid i k ≤ e.area) ∧
    ((f.glyph = ci.length ∧ f.widths = mid) ∨
      ∃ v, tabAdjust e ci mid f.glyph f.soFar = some (v, f.widths) ∧ e.area < f.soFar + v)

theorem fitLine_spec {e : LineEnv} {ci : List Nat} {f : Fit} (n : Nat) :
    ∀ (i : Nat) (s : Int) (ws : List Int), ci.length - i = n → i ≤ ci.length →
      fitLine e ci i s ws = some f → Fitted e ci ws i s f := by
  induction n with
  | zero =>
    intro i s ws hn hi h
    obtain rfl : i = ci.length := by omega
    unfold fitLine at h
    simp only [Nat.lt_irrefl, if_false, Option.some.injEq] at h
    subst h
    exact ⟨Nat.le_refl _, Nat.le_refl _, ws, Processed.nil .., by rw [sumRange_self, Int.add_zero],
      fun k h1 h2 => by simp only at h2; omega, Or.inl ⟨rfl, rfl⟩⟩
  | succ n ih =>
    intro i s ws hn hi h
    unfold fitLine at h
    rw [if_pos (by omega)] at h
    cases ht : tabAdjust e ci ws i s with
    | none => simp [ht] at h
    | some r =>
      simp only [ht] at h
      by_cases hw : s + r.1 > e.area
      · rw [if_pos hw] at h
        simp only [Option.some.injEq] at h
        subst h
        exact ⟨Nat.le_refl _, hi, ws, Processed.nil .., by rw [sumRange_self, Int.add_zero],
          fun k h1 h2 => by simp only at h2; omega, Or.inr ⟨r.1, ht, hw⟩⟩
      · rw [if_neg hw] at h
        obtain ⟨hlo, hhi, mid, hp, hsf, hall, hend⟩ := ih _ _ _ (by omega) (by omega) h
        obtain ⟨hp', hv⟩ := Processed.cons ht hlo hp
        refine ⟨by omega, hhi, mid, hp', ?_, ?_, hend⟩
        · rw [hsf, sumRange_step mid hv (by omega)]; omega
        · intro k h1 h2
          rw [sumRange_step mid hv h1]
          rcases Nat.lt_or_ge (i + 1) k with hlt | hge
          · have := hall k hlt h2; omega
          · obtain rfl : k = i + 1 := by omega
            rw [sumRange_self]; omega

/-! ### Definedness of the tab code -/

/-- Tab stops in multiples of the advance of a blank: the tab width is 1.0 or above and the tabs are wider than zero. -/
def LineEnv.TabsScaled (e : LineEnv) (ci : List Nat) (ws : List Int) : Prop :=
  e.tabPixels = false ∧ 64 ≤ e.tabWidth ∧
    ∀ (i c : Nat) (w : Int), ci[i]? = some c → e.isTab c = true → ws[i]? = some w → 0 < w

/-- The tab code is defined: no tab, or tab width in pixels and not zero, or scaled tab stops. -/
def LineEnv.TabsDefined (e : LineEnv) (ci : List Nat) (ws : List Int) : Prop :=
  (∀ c ∈ ci, e.isTab c = false) ∨ (e.tabPixels = true ∧ e.tabWidth ≠ 0) ∨ e.TabsScaled ci ws

theorem tabStop_scaled {e : LineEnv} (h1 : e.tabPixels = false) (h2 : 64 ≤ e.tabWidth) {w : Int} (hw : 0 < w) (s : Int) :
    ∃ v, tabStop e w s = some v ∧ 0 < v := by
  have hb : 0 < mulFixed w e.tabWidth := by
    unfold mulFixed
    have : 1 * 64 ≤ w * e.tabWidth := Int.mul_le_mul (by omega) h2 (by omega) (by omega)
    omega
  have hlt := Int.tmod_lt_of_pos s hb
  refine ⟨mulFixed w e.tabWidth - s.tmod (mulFixed w e.tabWidth), ?_, by omega⟩
  unfold tabStop
  simp only [h1, Bool.false_eq_true, if_false]
  rw [if_neg (by omega)]

/-- Tab stops stay scaled: adjusted tabs are again wider than zero. -/
theorem Processed.scaled {e : LineEnv} {ci : List Nat} {ws ws' : List Int} {i j : Nat} {s : Int}
    (h : Processed e ci ws ws' i j s) (ht : e.TabsScaled ci ws) : e.TabsScaled ci ws' := by
  obtain ⟨h1, h2, h3⟩ := ht
  refine ⟨h1, h2, ?_⟩
  intro k c w hc hb hw
  by_cases hin : i ≤ k ∧ k < j
  · obtain ⟨w0, c', v, g1, g2, g3, _, g5⟩ := h.step k hin.1 hin.2
    rw [hc] at g2; cases g2
    rw [hw] at g3; cases g3
    obtain ⟨v', g6, g7⟩ := tabStop_scaled h1 h2 (h3 k c w0 hc hb g1) (s + sumRange ws' i k)
    rw [g5 hb] at g6; cases g6
    exact g7
  · rw [h.out k (by omega)] at hw
    exact h3 k c w hc hb hw

theorem Processed.tabsDefined {e : LineEnv} {ci : List Nat} {ws ws' : List Int} {i j : Nat} {s : Int}
    (h : Processed e ci ws ws' i j s) (ht : e.TabsDefined ci ws) : e.TabsDefined ci ws' :=
  ht.imp id (fun h' => h'.imp id h.scaled)

theorem tabAdjust_processed {e : LineEnv} {ci : List Nat} {ws : List Int} {i : Nat} {s : Int} {r : Int × List Int}
    (h : tabAdjust e ci ws i s = some r) : Processed e ci ws r.2 i (i + 1) s :=
  (Processed.cons (v := r.1) (ws1 := r.2) h (Nat.le_refl _) (Processed.nil e ci r.2 _ _)).1

theorem tabAdjust_defined {e : LineEnv} {ci : List Nat} {ws : List Int} (ht : e.TabsDefined ci ws)
    (hl : ws.length = ci.length) {i : Nat} (hi : i < ci.length) (s : Int) :
    ∃ r, tabAdjust e ci ws i s = some r ∧ r.2.length = ci.length ∧ e.TabsDefined ci r.2 := by
  have hw : ws[i]? = some ws[i] := List.getElem?_eq_getElem (by omega)
  have hc : ci[i]? = some ci[i] := List.getElem?_eq_getElem hi
  have : ∃ r, tabAdjust e ci ws i s = some r ∧ r.2.length = ci.length := by
    unfold tabAdjust
    simp only [hw, hc]
    by_cases hb : e.isTab ci[i] = true
    · simp only [hb, if_true]
      rcases ht with ht | ⟨h1, h2⟩ | ⟨h1, h2, h3⟩
      · rw [ht _ (List.getElem_mem hi)] at hb; cases hb
      · simp [tabStop, h1, h2, hl]
      · obtain ⟨v, hv, _⟩ := tabStop_scaled h1 h2 (h3 i _ _ hc hb hw) s
        rw [hv]
        exact ⟨_, rfl, by simp [hl]⟩
    · simp only [hb, Bool.false_eq_true, if_false]
      exact ⟨_, rfl, hl⟩
  obtain ⟨r, h1, h2⟩ := this
  exact ⟨r, h1, h2, (tabAdjust_processed h1).tabsDefined ht⟩

theorem fitLine_defined {e : LineEnv} {ci : List Nat} (n : Nat) :
    ∀ (i : Nat) (s : Int) (ws : List Int), e.TabsDefined ci ws → ci.length - i = n → ws.length = ci.length →
      ∃ f, fitLine e ci i s ws = some f ∧ e.TabsDefined ci f.widths := by
  induction n with
  | zero =>
    intro i s ws ht hn hl
    unfold fitLine
    rw [if_neg (by omega)]; exact ⟨_, rfl, ht⟩
  | succ n ih =>
    intro i s ws ht hn hl
    unfold fitLine
    rw [if_pos (by omega)]
    obtain ⟨r, hr, hrl, hrt⟩ := tabAdjust_defined ht hl (i := i) (by omega) s
    simp only [hr]
    split
    · exact ⟨_, rfl, hrt⟩
    · exact ih _ _ _ hrt (by omega) hrl

theorem adjustTabs_defined {e : LineEnv} {ci : List Nat} :
    ∀ (n i : Nat) (s : Int) (ws : List Int), e.TabsDefined ci ws → i + n ≤ ci.length → ws.length = ci.length →
      ∃ ws', adjustTabs e ci n i s ws = some ws' ∧ e.TabsDefined ci ws'
  | 0, _, _, _, ht, _, _ => ⟨_, rfl, ht⟩
  | n + 1, i, s, ws, ht, hi, hl => by
    unfold adjustTabs
    obtain ⟨r, hr, hrl, hrt⟩ := tabAdjust_defined ht hl (i := i) (by omega) s
    simp only [hr]
    exact adjustTabs_defined n (i + 1) _ _ hrt (by omega) hrl

theorem applyTabs_defined {e : LineEnv} {ci : List Nat} (n : Nat) :
    ∀ (i : Nat) (s : Int) (ws : List Int), e.TabsDefined ci ws → ci.length - i = n → ws.length = ci.length →
      ∃ ws', applyTabs e ci i s ws = some ws' := by
  induction n with
  | zero =>
    intro i s ws ht hn hl
    unfold applyTabs
    rw [if_neg (by omega)]; exact ⟨_, rfl⟩
  | succ n ih =>
    intro i s ws ht hn hl
    unfold applyTabs
    rw [if_pos (by omega)]
    obtain ⟨r, hr, hrl, hrt⟩ := tabAdjust_defined ht hl (i := i) (by omega) s
    simp only [hr]
    exact ih _ _ _ hrt (by omega) hrl

/-! ### Breaks -/

theorem findPreviousLineBreak_defined {e : LineEnv} (hd : e.Decodes) (n : Nat) :
    ∀ i, e.length - i = n → ∃ p j, findPreviousLineBreak e i = some p ∧ p = e.preceding j := by
  induction n using Nat.strongRecOn with
  | ind n ih =>
    intro i hn
    unfold findPreviousLineBreak
    by_cases hi : i < e.length
    · obtain ⟨h1, h2⟩ := hd i hi
      rw [if_pos hi, if_pos h1]
      split
      · exact ih (e.length - e.next i) (by omega) _ rfl
      · exact ⟨_, _, rfl, rfl⟩
    · rw [if_neg hi]; exact ⟨_, _, rfl, rfl⟩

theorem findPreviousLineBreak_some {e : LineEnv} (n : Nat) :
    ∀ (i : Nat) (p : Int), e.length - i = n → findPreviousLineBreak e i = some p → ∃ j, p = e.preceding j := by
  induction n using Nat.strongRecOn with
  | ind n ih =>
    intro i p hn h
    unfold findPreviousLineBreak at h
    split at h
    · split at h
      · split at h
        · exact ih (e.length - e.next i) (by omega) _ _ rfl h
        · cases h; exact ⟨_, rfl⟩
      · cases h
    · cases h; exact ⟨_, rfl⟩

theorem forceBreak_spec (ci : List Nat) (ls : Int) (n : Nat) :
    ∀ (le : Int) (i : Nat), ci.length - i = n → i ≤ ci.length →
      i ≤ (forceBreak ci ls le i).2 ∧ (forceBreak ci ls le i).2 ≤ ci.length ∧
      (ls < le → forceBreak ci ls le i = (le, i)) ∧
      (le ≤ ls →
        ((forceBreak ci ls le i).1 ≤ ls ∧ (forceBreak ci ls le i).2 = ci.length ∧
            ∀ (k c : Nat), i ≤ k → ci[k]? = some c → (c : Int) ≤ ls) ∨
        (∃ k c : Nat, i ≤ k ∧ ci[k]? = some c ∧ ls < c ∧ forceBreak ci ls le i = ((c : Int), k + 1) ∧
          ∀ (k' c' : Nat), i ≤ k' → k' < k → ci[k']? = some c' → (c' : Int) ≤ ls)) := by
  induction n with
  | zero =>
    intro le i hn hi
    unfold forceBreak
    have hnone : ci[i]? = none := List.getElem?_eq_none (by omega)
    by_cases hle : le ≤ ls
    · rw [if_pos hle]
      split
      · refine ⟨Nat.le_refl _, hi, fun h => by omega, fun _ => Or.inl ⟨hle, by omega, ?_⟩⟩
        intro k c hk hc
        have := (List.getElem?_eq_some_iff.1 hc).1; omega
      · rename_i c hc; rw [hnone] at hc; cases hc
    · rw [if_neg hle]
      exact ⟨Nat.le_refl _, hi, fun _ => rfl, fun h => absurd h hle⟩
  | succ n ih =>
    intro le i hn hi
    unfold forceBreak
    have hsome : ci[i]? = some ci[i] := List.getElem?_eq_getElem (by omega)
    by_cases hle : le ≤ ls
    · rw [if_pos hle]
      split
      · rename_i hc; rw [hsome] at hc; cases hc
      · rename_i c hc
        obtain ⟨a1, a2, a3, a4⟩ := ih c (i + 1) (by omega) (by omega)
        refine ⟨by omega, a2, fun h => by omega, fun _ => ?_⟩
        rcases Int.lt_or_le ls c with hlt | hge
        · rw [a3 hlt]
          exact Or.inr ⟨i, c, Nat.le_refl _, hc, hlt, rfl, fun k' c' h1 h2 => by omega⟩
        · rcases a4 hge with ⟨b1, b2, b3⟩ | ⟨k, c', b1, b2, b3, b4, b5⟩
          · refine Or.inl ⟨b1, b2, fun k c' hk hc' => ?_⟩
            rcases Nat.lt_or_ge i k with h | h
            · exact b3 k c' h hc'
            · obtain rfl : k = i := by omega
              rw [hc] at hc'; cases hc'; exact hge
          · refine Or.inr ⟨k, c', by omega, b2, b3, b4, fun k' c'' h1 h2 hc'' => ?_⟩
            rcases Nat.lt_or_ge i k' with h | h
            · exact b5 k' c'' h h2 hc''
            · obtain rfl : k' = i := by omega
              rw [hc] at hc''; cases hc''; exact hge
    · rw [if_neg hle]
      exact ⟨Nat.le_refl _, hi, fun _ => rfl, fun h => absurd h hle⟩

theorem forceGlyph_bounds {n : Nat} {f : Fit} (h : f.glyph ≤ n) :
    f.glyph ≤ forceGlyph n f ∧ forceGlyph n f ≤ n := by
  unfold forceGlyph; split <;> omega

theorem breakFrom_bounds {e : LineEnv} {ci : List Nat} (hin : e.Inside ci) (i : Nat) :
    e.start ≤ breakFrom e ci i ∧ breakFrom e ci i ≤ e.start + e.length := by
  unfold breakFrom
  cases h : ci[i]? with
  | none => simp
  | some c => obtain ⟨h1, h2⟩ := hin c (List.mem_of_getElem? h); simp only; omega

/-- The parts of one iteration. -/
structure Iteration (e : LineEnv) (ci : List Nat) (ls : Nat) (ws : List Int) (l : BrokenLine) where
  g : Nat
  f : Fit
  p : Int
  search : binarySearch (fun i => (ci[i]?).map (fun c => decide (c < ls))) 0 ci.length = some g
  fit : fitLine e ci g 0 ws = some f
  prev : findPreviousLineBreak e (breakFrom e ci (forceGlyph ci.length f) - e.start) = some p
  adjust : adjustTabs e ci ((forceBreak ci ls (p + e.start) (forceGlyph ci.length f)).2 - f.glyph) f.glyph
    f.soFar f.widths = some l.widths
  first : l.first = ls
  stop : l.stop = (lastBreak e ci.length ls (forceBreak ci ls (p + e.start) (forceGlyph ci.length f))).toNat

theorem breakLine_iteration {e : LineEnv} {ci : List Nat} {ls : Nat} {ws : List Int} {l : BrokenLine}
    (h : breakLine e ci ls ws = some l) : Nonempty (Iteration e ci ls ws l) := by
  unfold breakLine at h
  simp only [Option.bind_eq_some_iff, Option.map_eq_some_iff] at h
  obtain ⟨g, h1, f, h2, p, h3, ws', h4, rfl⟩ := h
  exact ⟨⟨g, f, p, h1, h2, h3, h4, rfl, rfl⟩⟩

theorem search_bounds (ci : List Nat) (x : Nat) :
    ∃ g, binarySearch (fun i => (ci[i]?).map (fun c => decide (c < x))) 0 ci.length = some g ∧ g ≤ ci.length := by
  have key : ∀ (n first : Nat), first + n ≤ ci.length →
      ∃ g, binarySearch (fun i => (ci[i]?).map (fun c => decide (c < x))) first n = some g ∧ g ≤ first + n := by
    intro n
    induction n using Nat.strongRecOn with
    | ind n ih =>
      intro first hf
      unfold binarySearch
      by_cases h0 : n = 0
      · simp [h0]
      · rw [if_neg h0]
        have : ci[first + n / 2]? = some ci[first + n / 2] := List.getElem?_eq_getElem (by omega)
        rw [this]
        simp only [Option.map_some]
        cases decide (ci[first + n / 2] < x)
        · obtain ⟨g, h1, h2⟩ := ih (n / 2) (by omega) first (by omega)
          exact ⟨g, h1, by omega⟩
        · obtain ⟨g, h1, h2⟩ := ih (n - (n / 2 + 1)) (by omega) (first + n / 2 + 1) (by omega)
          exact ⟨g, h1, by omega⟩
  obtain ⟨g, h1, h2⟩ := key ci.length 0 (by omega)
  exact ⟨g, h1, by omega⟩

theorem lastBreak_bounds {e : LineEnv} {ci : List Nat} (hin : e.Inside ci) {ls : Nat}
    (hls : ls < e.start + e.length) {p : Int} (hp : p ≤ e.length) {i : Nat} (hi : i ≤ ci.length) :
    (ls : Int) < lastBreak e ci.length ls (forceBreak ci ls (p + e.start) i) ∧
      lastBreak e ci.length ls (forceBreak ci ls (p + e.start) i) ≤ ((e.start + e.length : Nat) : Int) := by
  obtain ⟨_, h2, h3, h4⟩ := forceBreak_spec ci ls _ (p + e.start) i rfl hi
  unfold lastBreak
  rcases Int.lt_or_le ls (p + e.start) with h | h
  · rw [h3 h]
    simp only
    rw [if_neg (by omega)]
    omega
  · rcases h4 h with ⟨a1, a2, _⟩ | ⟨k, c, _, a2, a3, a4, _⟩
    · rw [if_pos ⟨a1, a2⟩]; omega
    · rw [a4]
      simp only
      rw [if_neg (by omega)]
      have := (hin c (List.mem_of_getElem? a2)).2
      omega

theorem breakLine_bounds {e : LineEnv} (hb : e.BreaksInside) {ci : List Nat}
    (hin : e.Inside ci) {ls : Nat} (hls : ls < e.start + e.length) {ws : List Int} {l : BrokenLine}
    (h : breakLine e ci ls ws = some l) :
    l.first = ls ∧ ls < l.stop ∧ l.stop ≤ e.start + e.length ∧ l.widths.length = ws.length := by
  obtain ⟨it⟩ := breakLine_iteration h
  obtain ⟨g, hg, hgl⟩ := search_bounds ci ls
  rw [it.search] at hg; cases hg
  have hf := fitLine_spec _ _ _ _ rfl hgl it.fit
  obtain ⟨hfg1, hfg2⟩ := forceGlyph_bounds hf.hi
  obtain ⟨j, hpe⟩ := findPreviousLineBreak_some _ _ _ rfl it.prev
  have hp' : it.p ≤ e.length := by rw [hpe]; exact hb j
  obtain ⟨b1, b2⟩ := lastBreak_bounds hin hls hp' hfg2
  refine ⟨it.first, ?_, ?_, ?_⟩
  · rw [it.stop]; omega
  · rw [it.stop]; omega
  · rw [(adjustTabs_spec _ _ _ _ it.adjust).len]
    obtain ⟨mid, hm, _, _, hend⟩ := hf.mid
    rcases hend with ⟨_, he⟩ | ⟨v, he, _⟩
    · rw [he, hm.len]
    · obtain ⟨_, _, _, _, he', _⟩ := tabAdjust_spec he
      rw [he', List.length_set, hm.len]

theorem breakLine_defined {e : LineEnv} (hd : e.Decodes) {ci : List Nat} {ws : List Int}
    (ht : e.TabsDefined ci ws) (ls : Nat) (hl : ws.length = ci.length) :
    ∃ l, breakLine e ci ls ws = some l ∧ e.TabsDefined ci l.widths := by
  obtain ⟨g, hg, hgl⟩ := search_bounds ci ls
  obtain ⟨f, hf, hft⟩ := fitLine_defined _ g 0 ws ht rfl hl
  have hfs := fitLine_spec _ _ _ _ rfl hgl hf
  obtain ⟨hfg1, hfg2⟩ := forceGlyph_bounds hfs.hi
  obtain ⟨p, j, hp, -⟩ := findPreviousLineBreak_defined hd _ (breakFrom e ci (forceGlyph ci.length f) - e.start) rfl
  obtain ⟨a1, a2, _, _⟩ := forceBreak_spec ci ls _ (p + e.start) (forceGlyph ci.length f) rfl hfg2
  have hfl : f.widths.length = ci.length := by
    obtain ⟨mid, hm, _, _, hend⟩ := hfs.mid
    rcases hend with ⟨_, he⟩ | ⟨v, he, _⟩
    · rw [he, hm.len, hl]
    · obtain ⟨_, _, _, _, he', _⟩ := tabAdjust_spec he
      rw [he', List.length_set, hm.len, hl]
  obtain ⟨ws', hws, hwt⟩ := adjustTabs_defined ((forceBreak ci ls (p + e.start) (forceGlyph ci.length f)).2 - f.glyph)
    f.glyph f.soFar f.widths hft (by omega) hfl
  unfold breakLine
  simp only [hg, hf, hp, Option.bind_some, hws, Option.map_some]
  exact ⟨_, rfl, hwt⟩

/-- What tab adjustment preserves, an iteration preserves. -/
theorem breakLine_preserves {e : LineEnv} {ci : List Nat} {P : List Int → Prop}
    (hP : ∀ ws ws' i j s, Processed e ci ws ws' i j s → P ws → P ws') {ls : Nat} {ws : List Int} {l : BrokenLine}
    (h : breakLine e ci ls ws = some l) (hw : P ws) : P l.widths := by
  obtain ⟨it⟩ := breakLine_iteration h
  obtain ⟨g, hg, hgl⟩ := search_bounds ci ls
  rw [it.search] at hg; cases hg
  have hf := fitLine_spec _ _ _ _ rfl hgl it.fit
  refine hP _ _ _ _ _ (adjustTabs_spec _ _ _ _ it.adjust) ?_
  obtain ⟨mid, hm, _, _, hend⟩ := hf.mid
  rcases hend with ⟨_, he⟩ | ⟨v, he, _⟩
  · rw [he]; exact hP _ _ _ _ _ hm hw
  · exact hP _ _ _ _ _ (tabAdjust_processed he) (hP _ _ _ _ _ hm hw)

/-! ### The loop -/

theorem breakLines_consecutive {e : LineEnv} (hb : e.BreaksInside) {ci : List Nat}
    (hin : e.Inside ci) : ∀ (fuel ls : Nat) (ws : List Int) (lines : List BrokenLine),
      ls ≤ e.start + e.length → breakLines e ci fuel ls ws = some lines →
      Consecutive (e.start + e.length) ls (lineRanges lines) ∧ ∀ l ∈ lines, l.widths.length = ws.length := by
  intro fuel
  induction fuel with
  | zero =>
    intro ls ws lines hls h
    unfold breakLines at h
    split at h
    · cases h
    · cases h; exact ⟨by simp only [lineRanges, List.map_nil, Consecutive]; omega, by simp⟩
  | succ fuel ih =>
    intro ls ws lines hls h
    unfold breakLines at h
    split at h
    · rename_i hlt
      cases hl : breakLine e ci ls ws with
      | none => simp [hl] at h
      | some l =>
        simp only [hl, Option.map_eq_some_iff] at h
        obtain ⟨rest, hr, rfl⟩ := h
        obtain ⟨h1, h2, h3, h4⟩ := breakLine_bounds hb hin hlt hl
        obtain ⟨h5, h6⟩ := ih _ _ _ h3 hr
        refine ⟨?_, ?_⟩
        · simp only [lineRanges, List.map_cons, Consecutive]
          exact ⟨h1, by omega, h5⟩
        · intro l' hl'
          rcases List.mem_cons.1 hl' with rfl | hl'
          · exact h4
          · rw [h6 l' hl', h4]
    · cases h; exact ⟨by simp only [lineRanges, List.map_nil, Consecutive]; omega, by simp⟩

theorem breakLines_fuel {e : LineEnv} (hb : e.BreaksInside) {ci : List Nat}
    (hin : e.Inside ci) : ∀ (fuel fuel' ls : Nat) (ws : List Int),
      e.start + e.length - ls ≤ fuel → e.start + e.length - ls ≤ fuel' →
      breakLines e ci fuel ls ws = breakLines e ci fuel' ls ws := by
  intro fuel
  induction fuel with
  | zero =>
    intro fuel' ls ws h1 h2
    unfold breakLines
    rw [if_neg (by omega), if_neg (by omega)]
  | succ fuel ih =>
    intro fuel' ls ws h1 h2
    by_cases hlt : ls < e.start + e.length
    · cases fuel' with
      | zero => omega
      | succ fuel' =>
        unfold breakLines
        rw [if_pos hlt, if_pos hlt]
        simp only
        cases hl : breakLine e ci ls ws with
        | none => rfl
        | some l =>
          obtain ⟨_, a2, a3, _⟩ := breakLine_bounds hb hin hlt hl
          simp only
          rw [ih fuel' _ _ (by omega) (by omega)]
    · unfold breakLines
      rw [if_neg hlt, if_neg hlt]

theorem breakLines_defined {e : LineEnv} (hb : e.BreaksInside) (hd : e.Decodes) {ci : List Nat}
    (hin : e.Inside ci) : ∀ (fuel ls : Nat) (ws : List Int), e.TabsDefined ci ws → ws.length = ci.length →
      e.start + e.length - ls ≤ fuel → ∃ lines, breakLines e ci fuel ls ws = some lines := by
  intro fuel
  induction fuel with
  | zero =>
    intro ls ws ht hl h
    unfold breakLines
    rw [if_neg (by omega)]; exact ⟨_, rfl⟩
  | succ fuel ih =>
    intro ls ws ht hl h
    unfold breakLines
    split
    · rename_i hlt
      obtain ⟨l, hbl, hlt'⟩ := breakLine_defined hd ht ls hl
      obtain ⟨_, h2, h3, h4⟩ := breakLine_bounds hb hin hlt hbl
      obtain ⟨rest, hr⟩ := ih l.stop l.widths hlt' (by omega) (by omega)
      simp only [hbl, hr]
      exact ⟨_, rfl⟩
    · exact ⟨_, rfl⟩

/-- Every line comes from an iteration started in a state satisfying any
property that the iterations preserve. -/
theorem breakLines_mem {e : LineEnv} {ci : List Nat} (P : Nat → List Int → Prop)
    (hP : ∀ ls ws l, P ls ws → ls < e.start + e.length → breakLine e ci ls ws = some l → P l.stop l.widths) :
    ∀ (fuel ls : Nat) (ws : List Int) (lines : List BrokenLine), P ls ws →
      breakLines e ci fuel ls ws = some lines →
      ∀ l ∈ lines, ∃ ws0, P l.first ws0 ∧ l.first < e.start + e.length ∧ breakLine e ci l.first ws0 = some l := by
  intro fuel
  induction fuel with
  | zero =>
    intro ls ws lines hws h
    unfold breakLines at h
    split at h
    · cases h
    · cases h; simp
  | succ fuel ih =>
    intro ls ws lines hws h
    unfold breakLines at h
    split at h
    · rename_i hlt
      cases hl : breakLine e ci ls ws with
      | none => simp [hl] at h
      | some l =>
        simp only [hl, Option.map_eq_some_iff] at h
        obtain ⟨rest, hr, rfl⟩ := h
        have hf : l.first = ls := by obtain ⟨it⟩ := breakLine_iteration hl; exact it.first
        intro l' hl'
        rcases List.mem_cons.1 hl' with rfl | hl'
        · exact ⟨ws, by rw [hf]; exact hws, by omega, by rw [hf]; exact hl⟩
        · exact ih _ _ _ (hP _ _ _ hws hlt hl) hr l' hl'
    · cases h; simp

/-! ### Without tabs -/

theorem Processed.noTabs {e : LineEnv} {ci : List Nat} (ht : ∀ c ∈ ci, e.isTab c = false)
    {ws ws' : List Int} {i j : Nat} {s : Int} (p : Processed e ci ws ws' i j s) : ws' = ws := by
  apply List.ext_getElem?
  intro k
  by_cases hk : i ≤ k ∧ k < j
  · obtain ⟨w, c, v, h1, h2, h3, h4, _⟩ := p.step k hk.1 hk.2
    rw [h1, h3, h4 (ht c (List.mem_of_getElem? h2))]
  · exact p.out k (by omega)

theorem tabAdjust_noTabs {e : LineEnv} {ci : List Nat} (ht : ∀ c ∈ ci, e.isTab c = false)
    {ws ws' : List Int} {i : Nat} {s v : Int} (h : tabAdjust e ci ws i s = some (v, ws')) :
    ws' = ws ∧ ws[i]? = some v := by
  have h' := h
  obtain ⟨w, c, h1, h2, h3, h4, _⟩ := tabAdjust_spec h
  have hv := h4 (ht c (List.mem_of_getElem? h2))
  subst hv
  refine ⟨?_, h1⟩
  unfold tabAdjust at h'
  simp only [h1, h2, ht c (List.mem_of_getElem? h2), Bool.false_eq_true, if_false, Option.some.injEq,
    Prod.mk.injEq] at h'
  exact h'.2.symm

/-- What the accumulating loop leaves when there is no tab. -/
theorem Fitted.noTabs {e : LineEnv} {ci : List Nat} (ht : ∀ c ∈ ci, e.isTab c = false)
    {ws : List Int} {i : Nat} {f : Fit} (h : Fitted e ci ws i 0 f) :
    f.widths = ws ∧ f.soFar = sumRange ws i f.glyph ∧
      (∀ k, i < k → k ≤ f.glyph → sumRange ws i k ≤ e.area) ∧
      (f.glyph < ci.length → e.area < sumRange ws i (f.glyph + 1)) := by
  obtain ⟨mid, hp, hs, hall, hend⟩ := h.mid
  obtain rfl := hp.noTabs ht
  refine ⟨?_, by omega, fun k h1 h2 => by have := hall k h1 h2; omega, fun hlt => ?_⟩
  · rcases hend with ⟨_, he⟩ | ⟨v, he, _⟩
    · exact he
    · exact (tabAdjust_noTabs ht he).1
  · rcases hend with ⟨he, _⟩ | ⟨v, he, hv⟩
    · omega
    · rw [sumRange_succ mid h.lo (tabAdjust_noTabs ht he).2]; omega

theorem breakLine_noTabs {e : LineEnv} {ci : List Nat} (ht : ∀ c ∈ ci, e.isTab c = false)
    {ls : Nat} {ws : List Int} {l : BrokenLine} (h : breakLine e ci ls ws = some l) : l.widths = ws := by
  obtain ⟨it⟩ := breakLine_iteration h
  obtain ⟨g, hg, hgl⟩ := search_bounds ci ls
  rw [it.search] at hg; cases hg
  have hf := (fitLine_spec _ _ _ _ rfl hgl it.fit).noTabs ht
  rw [(adjustTabs_spec _ _ _ _ it.adjust).noTabs ht, hf.1]

/-! ### Where the previous break is -/

/-- Where the search for a break starts from: behind the first character, from
`i` on, that does not hang. -/
theorem findPreviousLineBreak_spec {e : LineEnv} {isStart : Nat → Prop} (hc : e.Codepoints isStart) (n : Nat) :
    ∀ i, e.length - i = n → (isStart i ∨ e.length ≤ i) → ∃ p, findPreviousLineBreak e i = some p ∧
      ((∃ k, i ≤ k ∧ k < e.length ∧ isStart k ∧ e.hangs k = false ∧ p = e.preceding (e.next k) ∧
          ∀ c, isStart c → i ≤ c → c < k → e.hangs c = true) ∨
       (∃ j, e.length < j ∧ p = e.preceding j ∧
          ∀ c, isStart c → i ≤ c → c < e.length → e.hangs c = true)) := by
  induction n using Nat.strongRecOn with
  | ind n ih =>
    intro i hn hi
    unfold findPreviousLineBreak
    by_cases hlt : i < e.length
    · have hst : isStart i := hi.resolve_right (by omega)
      obtain ⟨h1, h2, h3⟩ := hc.next i hst hlt
      rw [if_pos hlt, if_pos h1]
      cases hh : e.hangs i with
      | true =>
        simp only [if_true]
        obtain ⟨p, hp, hcase⟩ := ih (e.length - e.next i) (by omega) (e.next i) rfl
          (by by_cases h : e.next i < e.length
              · exact Or.inl (h3 h)
              · exact Or.inr (by omega))
        have key : ∀ c, isStart c → i ≤ c → e.next i ≤ c ∨ c = i := by
          intro c hcs hic
          rcases Nat.lt_or_ge i c with h | h
          · exact Or.inl (hc.gap i c hst hlt hcs h)
          · exact Or.inr (by omega)
        refine ⟨p, hp, ?_⟩
        rcases hcase with ⟨k, a1, a2, a3, a4, a5, a6⟩ | ⟨j, a1, a2, a3⟩
        · refine Or.inl ⟨k, by omega, a2, a3, a4, a5, fun c hcs h1' h2' => ?_⟩
          rcases key c hcs h1' with h | rfl
          · exact a6 c hcs h h2'
          · exact hh
        · refine Or.inr ⟨j, a1, a2, fun c hcs h1' h2' => ?_⟩
          rcases key c hcs h1' with h | rfl
          · exact a3 c hcs h h2'
          · exact hh
      | false =>
        simp only [Bool.false_eq_true, if_false]
        exact ⟨_, rfl, Or.inl ⟨i, Nat.le_refl _, hlt, hst, hh, rfl, fun c _ h1 h2 => by omega⟩⟩
    · rw [if_neg hlt]
      exact ⟨_, rfl, Or.inr ⟨_, by omega, rfl, fun c _ h1 h2 => by omega⟩⟩

/-- The search for the first glyph of a line. -/
theorem search_spec {ci : List Nat} (hs : ci.Pairwise (· ≤ ·)) (x : Nat) :
    ∃ g, binarySearch (fun i => (ci[i]?).map (fun c => decide (c < x))) 0 ci.length = some g ∧ g ≤ ci.length ∧
      ∀ (k c : Nat), ci[k]? = some c → (c < x ↔ k < g) := by
  obtain ⟨g, h1, _, h3, h4, h5⟩ := binarySearch_spec
    (fun i => (ci[i]?).map (fun c => decide (c < x))) (fun i => decide (ci.getD i 0 < x)) ci.length 0
    (by intro i _ hi; rw [List.getElem?_eq_getElem (by omega)]; simp [List.getD, List.getElem?_eq_getElem (show i < ci.length by omega)])
    (by
      intro i j _ hij hj h
      have hi : i < ci.length := by omega
      have hj : j < ci.length := by omega
      simp only [List.getD, List.getElem?_eq_getElem hi, List.getElem?_eq_getElem hj, Option.getD_some,
        decide_eq_true_eq] at h ⊢
      rcases Nat.lt_or_ge i j with h' | h'
      · have := List.pairwise_iff_getElem.1 hs i j hi hj h'; omega
      · have : i = j := by omega
        subst this; exact h)
  refine ⟨g, h1, by omega, ?_⟩
  intro k c hk
  obtain ⟨hkl, hke⟩ := List.getElem?_eq_some_iff.1 hk
  constructor
  · intro hlt
    rcases Nat.lt_or_ge k g with h | h
    · exact h
    · have := h5 k h (by omega)
      simp only [List.getD, hk, Option.getD_some, decide_eq_false_iff_not] at this
      exact absurd hlt this
  · intro h
    have := h4 k (Nat.zero_le _) h
    simpa [List.getD, hk] using this

/-! ### Tab stops -/

theorem tabStop_next {e : LineEnv} {w s v base : Int}
    (hb : base = if e.tabPixels then e.tabWidth else mulFixed w e.tabWidth) (hpos : 0 < base) (hs : 0 ≤ s)
    (h : tabStop e w s = some v) : IsNextStop base s (s + v) ∧ 0 < v := by
  unfold tabStop at h
  simp only [← hb] at h
  rw [if_neg (by omega)] at h
  simp only [Option.some.injEq] at h
  rw [Int.tmod_eq_emod_of_nonneg hs] at h
  have h1 := Int.emod_nonneg s (show base ≠ 0 by omega)
  have h2 := Int.emod_lt_of_pos s hpos
  refine ⟨⟨⟨s / base + 1, ?_⟩, by omega, by omega⟩, by omega⟩
  have := Int.mul_ediv_add_emod s base
  rw [Int.mul_add, Int.mul_one]
  omega

/-- Sums of processed widths are not negative. -/
theorem Processed.sum_nonneg {e : LineEnv} {ci : List Nat} {ws ws' : List Int} {i j : Nat} {s : Int}
    (p : Processed e ci ws ws' i j s) (hn : ∀ w ∈ ws, 0 ≤ w)
    (hp : ∀ (k c : Nat) (w : Int), ci[k]? = some c → e.isTab c = true → ws[k]? = some w →
      0 < if e.tabPixels then e.tabWidth else mulFixed w e.tabWidth)
    (hs : 0 ≤ s) : ∀ k, i ≤ k → k ≤ j → 0 ≤ s + sumRange ws' i k := by
  intro k hik hk
  obtain ⟨d, rfl⟩ := Nat.exists_eq_add_of_le hik
  clear hik
  induction d with
  | zero => rw [Nat.add_zero, sumRange_self]; omega
  | succ d ih =>
    have h0 := ih (by omega)
    rw [← Nat.add_assoc]
    obtain ⟨k, hkd⟩ : ∃ k, k = i + d := ⟨_, rfl⟩
    rw [← hkd] at h0 ⊢
    have hik : i ≤ k := by omega
    obtain ⟨w, c, v, h1, h2, h3, h4, h5⟩ := p.step k hik (by omega)
    rw [sumRange_succ ws' hik h3]
    have hw := hn w (List.mem_of_getElem? h1)
    cases ht : e.isTab c with
    | false => rw [h4 ht]; omega
    | true =>
      have := (tabStop_next rfl (hp k c w h2 ht h1) h0 (h5 ht)).2
      omega

theorem Processed.stops {e : LineEnv} {ci : List Nat} {ws ws' : List Int} {i j : Nat} {s : Int}
    (p : Processed e ci ws ws' i j s) (hn : ∀ w ∈ ws, 0 ≤ w)
    (hp : ∀ (k c : Nat) (w : Int), ci[k]? = some c → e.isTab c = true → ws[k]? = some w →
      0 < if e.tabPixels then e.tabWidth else mulFixed w e.tabWidth)
    (hs : 0 ≤ s) : ∀ (k c : Nat) (w : Int), i ≤ k → k < j → ci[k]? = some c → e.isTab c = true → ws[k]? = some w →
      IsNextStop (if e.tabPixels then e.tabWidth else mulFixed w e.tabWidth) (s + sumRange ws' i k)
        (s + sumRange ws' i (k + 1)) ∧ ∃ v, ws'[k]? = some v ∧ 0 < v := by
  intro k c w hik hkj hc ht hw
  have h0 := p.sum_nonneg hn hp hs k hik (by omega)
  obtain ⟨w', c', v, h1, h2, h3, _, h5⟩ := p.step k hik hkj
  rw [hw] at h1; cases h1
  rw [hc] at h2; cases h2
  obtain ⟨a, b⟩ := tabStop_next rfl (hp k c w hc ht hw) h0 (h5 ht)
  rw [sumRange_succ ws' hik h3]
  rw [Int.add_assoc] at a
  exact ⟨a, v, h3, b⟩

theorem Processed.nonneg {e : LineEnv} {ci : List Nat} {ws ws' : List Int} {i j : Nat} {s : Int}
    (p : Processed e ci ws ws' i j s) (hn : ∀ w ∈ ws, 0 ≤ w)
    (hp : ∀ (k c : Nat) (w : Int), ci[k]? = some c → e.isTab c = true → ws[k]? = some w →
      0 < if e.tabPixels then e.tabWidth else mulFixed w e.tabWidth)
    (hs : 0 ≤ s) : ∀ w ∈ ws', 0 ≤ w := by
  intro w hw
  obtain ⟨k, hk⟩ := List.mem_iff_getElem?.1 hw
  by_cases hin : i ≤ k ∧ k < j
  · obtain ⟨w', c', v, h1, h2, h3, h4, h5⟩ := p.step k hin.1 hin.2
    rw [hk] at h3; cases h3
    cases ht : e.isTab c' with
    | false => rw [h4 ht]; exact hn _ (List.mem_of_getElem? h1)
    | true =>
      have h0 := p.sum_nonneg hn hp hs k hin.1 (by omega)
      have := (tabStop_next rfl (hp k c' w' h2 ht h1) h0 (h5 ht)).2
      omega
  · rw [p.out k (by omega)] at hk
    exact hn _ (List.mem_of_getElem? hk)

/-- The accumulating loop with tab stops in pixels: like `Processed` up to and
including the glyph that overflows. -/
theorem Fitted.pixels {e : LineEnv} {ci : List Nat} {ws ws' : List Int} {g n : Nat} {f : Fit}
    (hf : Fitted e ci ws g 0 f) (hpx : e.tabPixels = true) (htw : 0 < e.tabWidth) (hn : ∀ w ∈ ws, 0 ≤ w)
    (ha : Processed e ci f.widths ws' f.glyph n f.soFar) :
    (∀ k, g < k → k ≤ f.glyph → sumRange ws' g k ≤ e.area) ∧
    (f.glyph < ci.length → e.area < sumRange ws' g (f.glyph + 1)) ∧
    ∀ (k c : Nat), g ≤ k → k ≤ f.glyph → ci[k]? = some c → e.isTab c = true →
      IsNextStop e.tabWidth (sumRange ws' g k) (sumRange ws' g (k + 1)) ∧ ∃ v, ws'[k]? = some v ∧ 0 < v := by
  have hp : ∀ (ws : List Int) (k c : Nat) (w : Int), ci[k]? = some c → e.isTab c = true → ws[k]? = some w →
      0 < if e.tabPixels then e.tabWidth else mulFixed w e.tabWidth := by
    intro _ _ _ _ _ _ _; rw [if_pos hpx]; exact htw
  obtain ⟨mid, hm, hsf, hall, hend⟩ := hf.mid
  have hlo := hf.lo
  -- before the overflowing glyph nothing changes any more
  have hsame : ∀ k, k < f.glyph → ws'[k]? = mid[k]? := by
    intro k hk
    rw [ha.out k (Or.inl hk)]
    rcases hend with ⟨_, he⟩ | ⟨v, he, _⟩
    · rw [he]
    · obtain ⟨_, _, _, _, he', _⟩ := tabAdjust_spec he
      rw [he', List.getElem?_set_ne (by omega)]
  have hsum : ∀ k, k ≤ f.glyph → sumRange ws' g k = sumRange mid g k := by
    intro k hk; exact sumRange_congr fun j _ h2 => hsame j (by omega)
  have h0 : 0 ≤ f.soFar := by
    have := hm.sum_nonneg hn (hp ws) (Int.le_refl 0) f.glyph hlo (Nat.le_refl _)
    omega
  -- the overflowing glyph is adjusted to the same width again
  have hlast : f.glyph < ci.length → ∃ v c, ws'[f.glyph]? = some v ∧ ci[f.glyph]? = some c ∧
      e.area < f.soFar + v ∧ (e.isTab c = true → IsNextStop e.tabWidth f.soFar (f.soFar + v) ∧ 0 < v) := by
    intro hlt
    rcases hend with ⟨he, _⟩ | ⟨v, he, hv⟩
    · omega
    · obtain ⟨w, c, h1, h2, h3, h4, h5⟩ := tabAdjust_spec he
      have hstop : e.isTab c = true → IsNextStop e.tabWidth f.soFar (f.soFar + v) ∧ 0 < v := by
        intro ht
        have := tabStop_next rfl (hp mid _ c w h2 ht h1) h0 (h5 ht)
        rwa [if_pos hpx] at this
      have hfw : f.widths[f.glyph]? = some v := by
        rw [h3, List.getElem?_set_self (List.getElem?_eq_some_iff.1 h1).1]
      refine ⟨v, c, ?_, h2, hv, hstop⟩
      by_cases hin : f.glyph < n
      · obtain ⟨w', c', v', a1, a2, a3, a4, a5⟩ := ha.step f.glyph (Nat.le_refl _) hin
        rw [hfw] at a1; cases a1
        rw [h2] at a2; cases a2
        rw [a3]
        cases ht : e.isTab c with
        | false => rw [a4 ht]
        | true =>
          have b1 := a5 ht
          have b2 := h5 ht
          rw [sumRange_self, Int.add_zero] at b1
          simp only [tabStop, hpx, if_true] at b1 b2
          rw [b1] at b2; rw [b2]
      · rw [ha.out _ (by omega), hfw]
  refine ⟨?_, ?_, ?_⟩
  · intro k h1 h2
    rw [hsum k h2]
    have := hall k h1 h2; omega
  · intro hlt
    obtain ⟨v, c, h1, _, h3, _⟩ := hlast hlt
    rw [sumRange_succ ws' hlo h1, hsum _ (Nat.le_refl _)]
    omega
  · intro k c hgk hk hc ht
    rcases Nat.lt_or_ge k f.glyph with hlt | hge
    · have hkw : ∃ w, ws[k]? = some w := by
        obtain ⟨w, _, _, h1, _⟩ := hm.step k hgk hlt; exact ⟨w, h1⟩
      obtain ⟨w, hw⟩ := hkw
      obtain ⟨a, b⟩ := hm.stops hn (hp ws) (Int.le_refl 0) k c w hgk hlt hc ht hw
      rw [if_pos hpx, Int.zero_add, Int.zero_add] at a
      rw [hsum k (by omega), hsum (k + 1) (by omega), hsame k hlt]
      exact ⟨a, b⟩
    · obtain rfl : k = f.glyph := by omega
      obtain ⟨v, c', h1, h2, _, h4⟩ := hlast (List.getElem?_eq_some_iff.1 hc).1
      rw [hc] at h2; cases h2
      obtain ⟨a, b⟩ := h4 ht
      rw [sumRange_succ ws' hlo h1, hsum _ (Nat.le_refl _)]
      have : f.soFar = sumRange mid g f.glyph := by omega
      rw [← this]
      exact ⟨a, v, h1, b⟩

theorem Fitted.scaled {e : LineEnv} {ci : List Nat} {ws ws' : List Int} {g n : Nat} {f : Fit}
    (hf : Fitted e ci ws g 0 f) (hn : ∀ w ∈ ws, 0 ≤ w)
    (hp : ∀ (k c : Nat) (w : Int), ci[k]? = some c → e.isTab c = true → ws[k]? = some w →
      0 < if e.tabPixels then e.tabWidth else mulFixed w e.tabWidth)
    (ha : Processed e ci f.widths ws' f.glyph n f.soFar) :
    (∀ k, g < k → k ≤ f.glyph → sumRange ws' g k ≤ e.area) ∧
    (f.glyph = ci.length ∨ ∃ c w v, ci[f.glyph]? = some c ∧ ws[f.glyph]? = some w ∧
      e.area < sumRange ws' g f.glyph + v ∧ (e.isTab c = false → v = w) ∧
      (e.isTab c = true → IsNextStop (if e.tabPixels then e.tabWidth else mulFixed w e.tabWidth)
        (sumRange ws' g f.glyph) (sumRange ws' g f.glyph + v))) ∧
    ∀ (k c : Nat) (w : Int), g ≤ k → k < f.glyph → ci[k]? = some c → e.isTab c = true → ws[k]? = some w →
      IsNextStop (if e.tabPixels then e.tabWidth else mulFixed w e.tabWidth) (sumRange ws' g k)
        (sumRange ws' g (k + 1)) ∧ ∃ v, ws'[k]? = some v ∧ 0 < v := by
  obtain ⟨mid, hm, hsf, hall, hend⟩ := hf.mid
  have hsame : ∀ k, k < f.glyph → ws'[k]? = mid[k]? := by
    intro k hk
    rw [ha.out k (Or.inl hk)]
    rcases hend with ⟨_, he⟩ | ⟨v, he, _⟩
    · rw [he]
    · obtain ⟨_, _, _, _, he', _⟩ := tabAdjust_spec he
      rw [he', List.getElem?_set_ne (by omega)]
  have hsum : ∀ k, k ≤ f.glyph → sumRange ws' g k = sumRange mid g k := by
    intro k hk; exact sumRange_congr fun j _ h2 => hsame j (by omega)
  refine ⟨?_, ?_, ?_⟩
  · intro k h1 h2
    rw [hsum k h2]
    have := hall k h1 h2; omega
  · rcases hend with ⟨he, _⟩ | ⟨v, he, hv⟩
    · exact Or.inl he
    · obtain ⟨w, c, h1, h2, _, h4, h5⟩ := tabAdjust_spec he
      have hw : ws[f.glyph]? = some w := by rw [← hm.out _ (Or.inr (Nat.le_refl _))]; exact h1
      have hsf' : sumRange ws' g f.glyph = f.soFar := by rw [hsum _ (Nat.le_refl _)]; omega
      have h0 := hm.sum_nonneg hn hp (Int.le_refl 0) f.glyph hf.lo (Nat.le_refl _)
      refine Or.inr ⟨c, w, v, h2, hw, by omega, h4, fun ht => ?_⟩
      rw [hsf']
      exact (tabStop_next rfl (hp _ c w h2 ht hw) (by omega) (h5 ht)).1
  · intro k c w hgk hlt hc ht hw
    obtain ⟨a, b⟩ := hm.stops hn hp (Int.le_refl 0) k c w hgk hlt hc ht hw
    rw [Int.zero_add, Int.zero_add] at a
    rw [hsum k (by omega), hsum (k + 1) (by omega), hsame k hlt]
    exact ⟨a, b⟩

theorem breakLine_nonneg {e : LineEnv} {ci : List Nat} (hpx : e.tabPixels = true) (htw : 0 < e.tabWidth)
    {ls : Nat} {ws : List Int} (hn : ∀ w ∈ ws, 0 ≤ w) {l : BrokenLine} (h : breakLine e ci ls ws = some l) :
    ∀ w ∈ l.widths, 0 ≤ w := by
  have hp : ∀ (ws : List Int) (k c : Nat) (w : Int), ci[k]? = some c → e.isTab c = true → ws[k]? = some w →
      0 < if e.tabPixels then e.tabWidth else mulFixed w e.tabWidth := by
    intro _ _ _ _ _ _ _; rw [if_pos hpx]; exact htw
  obtain ⟨it⟩ := breakLine_iteration h
  obtain ⟨g, hg, hgl⟩ := search_bounds ci ls
  rw [it.search] at hg; cases hg
  have hf := fitLine_spec _ _ _ _ rfl hgl it.fit
  obtain ⟨mid, hm, hsf, _, hend⟩ := hf.mid
  have h0 : 0 ≤ it.f.soFar := by
    have := hm.sum_nonneg hn (hp ws) (Int.le_refl 0) it.f.glyph hf.lo (Nat.le_refl _)
    omega
  have hmn := hm.nonneg hn (hp ws) (Int.le_refl 0)
  have hfw : ∀ w ∈ it.f.widths, 0 ≤ w := by
    rcases hend with ⟨_, he⟩ | ⟨v, he, _⟩
    · rw [he]; exact hmn
    · have := Processed.cons he (Nat.le_refl _) (Processed.nil e ci it.f.widths _ _)
      exact this.1.nonneg hmn (hp mid) h0
  exact (adjustTabs_spec _ _ _ _ it.adjust).nonneg hfw (hp _) h0

end RichText
