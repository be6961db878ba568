import Verif.Proof.Built
import Verif.Spec.TabFit
/-! Lines with tabs: the widths the code adds up are those of the specification. -/
namespace RichText

/-- Glyphs do not go back. -/
def LineEnv.Onward (e : LineEnv) (g : Nat × Int) : Prop :=
  (e.isTab g.1 = true → 0 < e.stopDistance g.2) ∧ (e.isTab g.1 = false → 0 ≤ g.2)

theorem stop_le {d x : Int} (hd : 0 < d) : x ≤ (x / d + 1) * d := by
  have h1 := Int.mul_ediv_add_emod x d
  have h2 := Int.emod_lt_of_pos x hd
  rw [Int.add_mul, Int.one_mul, Int.mul_comm]
  omega

theorem advance_le {e : LineEnv} {g : Nat × Int} (hg : e.Onward g) (x : Int) : x ≤ e.advanceFrom x g := by
  unfold LineEnv.advanceFrom
  by_cases ht : e.isTab g.1 = true
  · rw [if_pos ht]
    exact stop_le (hg.1 ht)
  · rw [if_neg ht]
    have := hg.2 (by simpa using ht)
    omega

theorem advance_mono {e : LineEnv} {g : Nat × Int} (hg : e.Onward g) {x y : Int} (h : x ≤ y) :
    e.advanceFrom x g ≤ e.advanceFrom y g := by
  unfold LineEnv.advanceFrom
  by_cases ht : e.isTab g.1 = true
  · rw [if_pos ht, if_pos ht]
    have h1 := hg.1 ht
    have h2 := Int.ediv_le_ediv h1 h
    exact Int.mul_le_mul_of_nonneg_right (by omega) (by omega)
  · rw [if_neg ht, if_neg ht]
    omega

theorem foldAdvance_le {e : LineEnv} : ∀ {l : List (Nat × Int)} (_ : ∀ g ∈ l, e.Onward g) (x : Int), x ≤ l.foldl e.advanceFrom x
  | [], _, x => Int.le_refl x
  | g :: t, h, x => Int.le_trans (advance_le (h g List.mem_cons_self) x)
      (foldAdvance_le (fun g' hg' => h g' (List.mem_cons_of_mem _ hg')) _)

/-- Fewer glyphs from an earlier place end no later. -/
theorem foldAdvance_mono {e : LineEnv} {l' l : List (Nat × Int)} (hs : l'.Sublist l) : ∀ (_ : ∀ g ∈ l, e.Onward g) {x y : Int}, x ≤ y →
    l'.foldl e.advanceFrom x ≤ l.foldl e.advanceFrom y := by
  induction hs with
  | slnil => intro _ x y h; exact h
  | cons g _ ih =>
    intro hg x y h
    rw [List.foldl_cons]
    exact ih (fun g' hg' => hg g' (List.mem_cons_of_mem _ hg')) (Int.le_trans h (advance_le (hg g List.mem_cons_self) y))
  | cons_cons g _ ih =>
    intro hg x y h
    rw [List.foldl_cons, List.foldl_cons]
    exact ih (fun g' hg' => hg g' (List.mem_cons_of_mem _ hg')) (advance_mono (hg g List.mem_cons_self) h)

/-- Where glyph `k` starts on a line that starts with glyph `g`. -/
def LineEnv.linePos (e : LineEnv) (ci : List Nat) (ws : List Int) (g k : Nat) : Int :=
  (((ci.zip ws).take k).drop g).foldl e.advanceFrom 0

theorem linePos_empty (e : LineEnv) (ci : List Nat) (ws : List Int) {g k : Nat} (h : k ≤ g) : e.linePos ci ws g k = 0 := by
  unfold LineEnv.linePos
  rw [List.drop_eq_nil_of_le (by rw [List.length_take]; omega)]
  rfl

theorem linePos_succ (e : LineEnv) {ci : List Nat} {ws : List Int} {g k c : Nat} {w : Int} (hc : ci[k]? = some c)
    (hw : ws[k]? = some w) (h : g ≤ k) : e.linePos ci ws g (k + 1) = e.advanceFrom (e.linePos ci ws g k) (c, w) := by
  unfold LineEnv.linePos
  have hz : (ci.zip ws)[k]? = some (c, w) := by rw [List.getElem?_zip_eq_some]; exact ⟨hc, hw⟩
  have hk : k < (ci.zip ws).length := (List.getElem?_eq_some_iff.1 hz).1
  rw [List.take_add_one, hz, List.drop_append_of_le_length (by rw [List.length_take]; omega), List.foldl_append]
  rfl

theorem linePos_mono {e : LineEnv} {ci : List Nat} {ws : List Int} (hg : ∀ x ∈ ci.zip ws, e.Onward x) {g k k' : Nat} (h : k ≤ k') :
    e.linePos ci ws g k ≤ e.linePos ci ws g k' :=
  foldAdvance_mono ((List.take_sublist_take_left h).drop g)
    (fun x hx => hg x (List.mem_of_mem_take (List.mem_of_mem_drop hx))) (Int.le_refl 0)

theorem linePos_anti {e : LineEnv} {ci : List Nat} {ws : List Int} (hg : ∀ x ∈ ci.zip ws, e.Onward x) {g g' k : Nat} (h : g ≤ g') :
    e.linePos ci ws g' k ≤ e.linePos ci ws g k :=
  foldAdvance_mono (List.drop_sublist_drop_left _ h)
    (fun x hx => hg x (List.mem_of_mem_take (List.mem_of_mem_drop hx))) (Int.le_refl 0)

theorem linePos_nonneg {e : LineEnv} {ci : List Nat} {ws : List Int} (hg : ∀ x ∈ ci.zip ws, e.Onward x) (g k : Nat) :
    0 ≤ e.linePos ci ws g k :=
  foldAdvance_le (fun x hx => hg x (List.mem_of_mem_take (List.mem_of_mem_drop hx))) 0

theorem filter_range {α : Type} (P : α → Bool) : ∀ (l : List α) (a b : Nat), (∀ (k : Nat) (x : α), l[k]? = some x → (P x = true ↔ a ≤ k ∧ k < b)) →
    l.filter P = (l.take b).drop a
  | [], a, b, _ => by simp
  | x :: t, a, b, h => by
    have h0 := h 0 x rfl
    have ht := filter_range P t (a - 1) (b - 1) fun k y hk => by
      rw [h (k + 1) y (by simpa using hk)]
      omega
    rw [List.filter_cons]
    by_cases hp : P x = true
    · obtain ⟨h1, h2⟩ := h0.1 hp
      obtain rfl : a = 0 := by omega
      obtain ⟨b', rfl⟩ : ∃ b', b = b' + 1 := ⟨b - 1, by omega⟩
      rw [if_pos hp, ht]
      simp
    · rw [if_neg hp, ht]
      have h1 : ¬ (a ≤ 0 ∧ 0 < b) := fun hx => hp (h0.2 hx)
      by_cases hb : b ≤ a
      · rw [List.drop_eq_nil_of_le (by rw [List.length_take]; omega), List.drop_eq_nil_of_le (by rw [List.length_take]; omega)]
      · obtain ⟨a', rfl⟩ : ∃ a', a = a' + 1 := ⟨a - 1, by omega⟩
        obtain ⟨b', rfl⟩ : ∃ b', b = b' + 1 := ⟨b - 1, by omega⟩
        simp

theorem widthBetween_eq {e : LineEnv} {ci : List Nat} {ws : List Int} {p v a b : Nat}
    (h : ∀ (k c : Nat), ci[k]? = some c → (p ≤ c ∧ c < v ↔ a ≤ k ∧ k < b)) : e.widthBetween ci ws p v = e.linePos ci ws a b := by
  unfold LineEnv.widthBetween LineEnv.linePos
  rw [filter_range _ (ci.zip ws) a b]
  intro k x hk
  rw [List.getElem?_zip_eq_some] at hk
  rw [decide_eq_true_eq]
  exact h k x.1 hk.1

theorem widthBetween_mono {e : LineEnv} {ci : List Nat} {ws : List Int} (hg : ∀ x ∈ ci.zip ws, e.Onward x) {p p' v v' : Nat} (hp : p ≤ p')
    (hv : v' ≤ v) : e.widthBetween ci ws p' v' ≤ e.widthBetween ci ws p v := by
  refine foldAdvance_mono ?_ (fun x hx => hg x (List.mem_of_mem_filter hx)) (Int.le_refl 0)
  refine List.monotone_filter_right _ fun x hx => ?_
  rw [decide_eq_true_eq] at hx ⊢
  omega

theorem widthBetween_nonneg {e : LineEnv} {ci : List Nat} {ws : List Int} (hg : ∀ x ∈ ci.zip ws, e.Onward x) (p v : Nat) :
    0 ≤ e.widthBetween ci ws p v :=
  foldAdvance_le (fun x hx => hg x (List.mem_of_mem_filter hx)) 0

theorem onward_of {e : LineEnv} {ci : List Nat} {ws : List Int} (hw : ∀ w ∈ ws, 0 ≤ w) (ht : e.TabsForward ci ws) :
    ∀ x ∈ ci.zip ws, e.Onward x := by
  intro x hx
  obtain ⟨k, hk⟩ := List.getElem?_of_mem hx
  rw [List.getElem?_zip_eq_some] at hk
  refine ⟨fun h => ?_, fun _ => hw _ (List.mem_of_getElem? hk.2)⟩
  unfold LineEnv.stopDistance
  rcases ht with h1 | ⟨h1, h2⟩ | ⟨h1, h2, h3⟩
  · rw [h1] at h; cases h
  · rw [h1]; simpa using h2
  · rw [h1]
    simp only [Bool.false_eq_true, if_false]
    have := h3 k x.1 x.2 hk.1 h hk.2
    have h4 : 64 ≤ x.2 * e.tabWidth := by
      have := Int.mul_le_mul_of_nonneg_right (show (1 : Int) ≤ x.2 by omega) (show (0 : Int) ≤ e.tabWidth by omega)
      omega
    have := Int.ediv_le_ediv (show (0 : Int) < 64 by decide) h4
    omega

/-- The widths are as at the beginning from glyph `g` on, but for the widths of tabs where these do not count. -/
def LineEnv.Agrees (e : LineEnv) (ci : List Nat) (ws0 ws : List Int) (g : Nat) : Prop :=
  ∀ (k c : Nat), g ≤ k → ci[k]? = some c → e.isTab c = false ∨ e.tabPixels = false → ws[k]? = ws0[k]?

theorem tabStop_advance {e : LineEnv} {w w0 s v : Int} {c : Nat} (hs : 0 ≤ s) (h : tabStop e w s = some v)
    (hd : 0 < e.stopDistance w0) (hw : e.tabPixels = false → w = w0) (ht : e.isTab c = true) : s + v = e.advanceFrom s (c, w0) := by
  unfold LineEnv.advanceFrom
  rw [if_pos ht]
  dsimp only
  have hbase : (if e.tabPixels then e.tabWidth else mulFixed w e.tabWidth) = e.stopDistance w0 := by
    unfold LineEnv.stopDistance mulFixed
    by_cases hp : e.tabPixels = true
    · rw [if_pos hp, if_pos hp]
    · rw [if_neg hp, if_neg hp, hw (by simpa using hp)]
  unfold tabStop at h
  simp only [hbase] at h
  rw [if_neg (by omega)] at h
  simp only [Option.some.injEq] at h
  rw [Int.tmod_eq_emod_of_nonneg hs] at h
  have h1 := Int.mul_ediv_add_emod s (e.stopDistance w0)
  rw [Int.add_mul, Int.one_mul, Int.mul_comm]
  omega

/-- The step of the code is that of the specification. -/
theorem step_advance {e : LineEnv} {ci : List Nat} {ws0 ws : List Int} {g k c : Nat} {w w0 v s : Int} (hag : e.Agrees ci ws0 ws g)
    (hgk : g ≤ k) (hc : ci[k]? = some c) (hw : ws[k]? = some w) (hw0 : ws0[k]? = some w0) (hgood : e.Onward (c, w0)) (hs : 0 ≤ s)
    (h1 : e.isTab c = false → v = w) (h2 : e.isTab c = true → tabStop e w s = some v) : s + v = e.advanceFrom s (c, w0) := by
  by_cases ht : e.isTab c = true
  · refine tabStop_advance hs (h2 ht) (hgood.1 ht) (fun hp => ?_) ht
    have := hag k c hgk hc (Or.inr hp)
    rw [hw, hw0] at this
    cases this; rfl
  · have hf : e.isTab c = false := by simpa using ht
    have := hag k c hgk hc (Or.inl hf)
    rw [hw, hw0] at this
    cases this
    unfold LineEnv.advanceFrom
    rw [if_neg ht, h1 hf]

theorem Fitted.positions {e : LineEnv} {ci : List Nat} {ws0 ws : List Int} {g : Nat} {f : Fit} (h : Fitted e ci ws g 0 f)
    (hlen : ws0.length = ci.length) (hag : e.Agrees ci ws0 ws g) (hgood : ∀ x ∈ ci.zip ws0, e.Onward x) :
    f.soFar = e.linePos ci ws0 g f.glyph ∧ (∀ k, g < k → k ≤ f.glyph → e.linePos ci ws0 g k ≤ e.area) ∧
      (f.glyph < ci.length → e.area < e.linePos ci ws0 g (f.glyph + 1)) := by
  obtain ⟨mid, hp, hs, hall, hend⟩ := h.mid
  have hz : ∀ {k c : Nat} {w : Int}, ci[k]? = some c → ws0[k]? = some w → e.Onward (c, w) := fun {k c w} hc hw =>
    hgood _ (List.mem_of_getElem? (i := k) (by rw [List.getElem?_zip_eq_some]; exact ⟨hc, hw⟩))
  have key : ∀ n, g + n ≤ f.glyph → sumRange mid g (g + n) = e.linePos ci ws0 g (g + n) := by
    intro n
    induction n with
    | zero => intro _; rw [Nat.add_zero, sumRange_self, linePos_empty _ _ _ (Nat.le_refl _)]
    | succ n ih =>
      intro hn
      have ih := ih (by omega)
      obtain ⟨w, c, v, a1, a2, a3, a4, a5⟩ := hp.step (g + n) (by omega) (by omega)
      have hl : g + n < ws0.length := by rw [hlen]; exact (List.getElem?_eq_some_iff.1 a2).1
      have hw0 := List.getElem?_eq_getElem hl
      have hnn := linePos_nonneg hgood g (g + n)
      rw [← Nat.add_assoc, sumRange_succ mid (by omega) a3, linePos_succ e a2 hw0 (by omega), ih]
      refine step_advance hag (by omega) a2 a1 hw0 (hz a2 hw0) hnn a4 fun ht => ?_
      have := a5 ht
      rw [Int.zero_add, ih] at this
      exact this
  have hlo := h.lo
  have key' : ∀ k, g ≤ k → k ≤ f.glyph → sumRange mid g k = e.linePos ci ws0 g k := by
    intro k h1 h2
    obtain ⟨n, rfl⟩ : ∃ n, k = g + n := ⟨k - g, by omega⟩
    exact key n h2
  have hso : f.soFar = e.linePos ci ws0 g f.glyph := by rw [← key' _ hlo (Nat.le_refl _)]; omega
  refine ⟨hso, fun k h1 h2 => ?_, fun hlt => ?_⟩
  · have := hall k h1 h2
    rw [← key' k (by omega) h2]
    omega
  · rcases hend with ⟨he, _⟩ | ⟨v, he, hv⟩
    · omega
    · obtain ⟨w, c, a1, a2, _, a4, a5⟩ := tabAdjust_spec he
      rw [hp.out _ (Or.inr (Nat.le_refl _))] at a1
      have hw0 := List.getElem?_eq_getElem (show f.glyph < ws0.length by omega)
      rw [linePos_succ e a2 hw0 hlo, ← hso]
      have hnn := linePos_nonneg hgood g f.glyph
      have := step_advance hag hlo a2 a1 hw0 (hz a2 hw0) (by omega : 0 ≤ f.soFar) a4 a5
      omega

/-- Tab adjustment changes tabs only. -/
theorem Processed.keeps {e : LineEnv} {ci : List Nat} {ws ws' : List Int} {i j : Nat} {s : Int} (h : Processed e ci ws ws' i j s)
    {k c : Nat} (hc : ci[k]? = some c) (hk : e.isTab c = false ∨ ¬ (i ≤ k ∧ k < j)) : ws'[k]? = ws[k]? := by
  by_cases hr : i ≤ k ∧ k < j
  · obtain ⟨w, c', v, a1, a2, a3, a4, _⟩ := h.step k hr.1 hr.2
    rw [hc] at a2
    cases a2
    rcases hk with hk | hk
    · rw [a3, a1, a4 hk]
    · exact absurd hr hk
  · exact h.out k (by omega)

theorem sorted_le {ci : List Nat} (hs : ci.Pairwise (· ≤ ·)) {i j c d : Nat} (hi : ci[i]? = some c) (hj : ci[j]? = some d) (h : i ≤ j) : c ≤ d := by
  obtain ⟨h1, rfl⟩ := List.getElem?_eq_some_iff.1 hi
  obtain ⟨h2, rfl⟩ := List.getElem?_eq_some_iff.1 hj
  rcases Nat.lt_or_ge i j with h' | h'
  · exact List.pairwise_iff_getElem.1 hs i j h1 h2 h'
  · obtain rfl : i = j := by omega
    exact Nat.le_refl _

/-- With tab stops in blanks, the tabs that a line looks at are on it. -/
theorem tabs_on_line {e : LineEnv} {ci : List Nat} {ws : List Int} {isStart isBreak : Nat → Prop} (hc : e.Codepoints isStart)
    (hb : e.Breaks isBreak) (hin : ∀ c ∈ ci, e.start ≤ c ∧ c < e.start + e.length ∧ isStart (c - e.start))
    (hs : ci.Pairwise (· ≤ ·)) (ho : e.TabsOnce isStart isBreak ci) (hpx : e.tabPixels = false) {p : Nat} {l : BrokenLine}
    (hp : e.start ≤ p) (it : Iteration e ci p ws l) (hf : Fitted e ci ws it.g 0 it.f)
    (hgs : ∀ (k c : Nat), ci[k]? = some c → (c < p ↔ k < it.g))
    {k c : Nat} (hck : ci[k]? = some c) (ht : e.isTab c = true) (hgk : it.g ≤ k)
    (hk : k ≤ it.f.glyph ∨ k < (forceBreak ci p (it.p + e.start) (forceGlyph ci.length it.f)).2) : c < l.stop := by
  obtain ⟨ho1, ho2⟩ := ho hpx
  have hcin := hin c (List.mem_of_getElem? hck)
  have hpc : p ≤ c := by have := hgs k c hck; omega
  obtain ⟨hm1, hm2⟩ := forceGlyph_bounds hf.hi
  obtain ⟨u1, u2, u3, u4⟩ := forceBreak_spec ci p _ (it.p + e.start) (forceGlyph ci.length it.f) rfl hm2
  have hstop := it.stop
  have hkl := (List.getElem?_eq_some_iff.1 hck).1
  -- a tab up to where the search begins is in front of the break that is found
  have near : k ≤ forceGlyph ci.length it.f → c < l.stop := by
    intro hkm
    obtain ⟨b, hbb, hcb, hhang⟩ := ho1 c (List.mem_of_getElem? hck) ht
    have hbl := hb.inside b hbb
    have hfc : c ≤ breakFrom e ci (forceGlyph ci.length it.f) := by
      unfold breakFrom
      cases hx : ci[forceGlyph ci.length it.f]? with
      | none => simp only; omega
      | some d => exact sorted_le hs hck hx hkm
    have hfrom : isStart (breakFrom e ci (forceGlyph ci.length it.f) - e.start) ∨
        e.length ≤ breakFrom e ci (forceGlyph ci.length it.f) - e.start := by
      unfold breakFrom
      cases hx : ci[forceGlyph ci.length it.f]? with
      | none => right; simp only; omega
      | some d => exact Or.inl (hin d (List.mem_of_getElem? hx)).2.2
    obtain ⟨q, hq, hcase⟩ := findPreviousLineBreak_spec hc _ _ rfl hfrom
    rw [it.prev] at hq
    cases hq
    have hbp : (b : Int) ≤ it.p := by
      rcases hcase with ⟨k', a1, a2, a3, a4, a5, _⟩ | ⟨j, a1, a2, _⟩
      · obtain ⟨n1, _, _⟩ := hc.next k' a3 a2
        have hbk : b ≤ k' := by
          rcases Nat.lt_or_ge k' b with hx | hx
          · have := hhang k' a3 (by omega) hx
            rw [a4] at this
            exact absurd this (by decide)
          · exact hx
        rcases hb.preceding (e.next k') with ⟨_, b2⟩ | ⟨b', b1, _, _, b4⟩
        · have := b2 b hbb; omega
        · have := b4 b hbb (by omega); omega
      · rcases hb.preceding j with ⟨_, b2⟩ | ⟨b', b1, _, _, b4⟩
        · have := b2 b hbb; omega
        · have := b4 b hbb (by omega); omega
    rw [hstop, u3 (by omega)]
    unfold lastBreak
    simp only
    rw [if_neg (by omega)]
    omega
  rcases Nat.lt_or_ge (forceGlyph ci.length it.f) k with hlt | hge
  · rcases hk with hk | hk
    · omega
    · rcases Int.lt_or_le (p : Int) (it.p + e.start) with hx | hx
      · rw [u3 hx] at hk
        simp only at hk
        omega
      · rcases u4 hx with ⟨x1, x2, _⟩ | ⟨k', c', x1, x2, x3, x4, x5⟩
        · rw [hstop]
          unfold lastBreak
          rw [if_pos ⟨x1, x2⟩]
          omega
        · rw [x4] at hk
          have hst : l.stop = c' := by
            rw [hstop, x4]; unfold lastBreak; simp only; rw [if_neg (by omega)]; omega
          simp only at hk
          rcases Nat.lt_or_ge k k' with hkk | hkk
          · have := x5 k c (by omega) hkk hck
            omega
          · -- the tab is the glyph the line was broken at
            obtain rfl : k = k' := by omega
            exfalso
            have hg1 : it.g + 1 ≤ forceGlyph ci.length it.f := by
              rcases Nat.lt_or_ge it.g it.f.glyph with h' | h'
              · omega
              · have hlo := hf.lo
                have hge : it.f.glyph = it.g := by omega
                obtain ⟨mid, _, hso, _⟩ := hf.mid
                rw [hge, sumRange_self] at hso
                unfold forceGlyph
                rw [if_pos ⟨by omega, by omega⟩]
                omega
            have hd1 := List.getElem?_eq_getElem (show k - 1 < ci.length by omega)
            have hd2 := List.getElem?_eq_getElem (show k - 2 < ci.length by omega)
            have e1 := x5 (k - 1) _ (by omega) (by omega) hd1
            have e2 := hgs (k - 1) _ hd1
            have e3 := hgs (k - 2) _ hd2
            have e4 := sorted_le hs hd2 hd1 (by omega)
            have := ho2 (k - 2) ci[k - 1] c (by rw [hd2]; congr 1; omega)
              (by rw [show k - 2 + 1 = k - 1 by omega]; exact hd1) (by rw [show k - 2 + 2 = k by omega]; exact hck)
            rw [ht] at this
            cases this
  · exact near hge

/-- A line leaves the widths of the glyphs behind it as they were. -/
theorem breakLine_agrees {e : LineEnv} {ci : List Nat} {ws0 ws : List Int} {isStart isBreak : Nat → Prop} (hc : e.Codepoints isStart)
    (hb : e.Breaks isBreak) (hin : ∀ c ∈ ci, e.start ≤ c ∧ c < e.start + e.length ∧ isStart (c - e.start))
    (hs : ci.Pairwise (· ≤ ·)) (ho : e.TabsOnce isStart isBreak ci) {p : Nat} (hp : e.start ≤ p) (hpe : p < e.start + e.length)
    {l : BrokenLine} (h : breakLine e ci p ws = some l)
    (hag : ∀ (k c : Nat), p ≤ c → ci[k]? = some c → e.isTab c = false ∨ e.tabPixels = false → ws[k]? = ws0[k]?) :
    ∀ (k c : Nat), l.stop ≤ c → ci[k]? = some c → e.isTab c = false ∨ e.tabPixels = false → l.widths[k]? = ws0[k]? := by
  obtain ⟨it⟩ := breakLine_iteration h
  obtain ⟨g, hg, hgl, hgs⟩ := search_spec hs p
  rw [it.search] at hg; cases hg
  have hf := fitLine_spec _ _ _ _ rfl hgl it.fit
  have hbi : e.BreaksInside := by
    intro i
    rcases hb.preceding i with ⟨h1, _⟩ | ⟨b, h1, h2, _⟩
    · omega
    · have := hb.inside b h2; omega
  have hbd := breakLine_bounds hbi (fun c hc => ⟨(hin c hc).1, (hin c hc).2.1⟩) hpe h
  intro k c hk hck hor
  have hkg : it.g ≤ k := by have := hgs k c hck; omega
  rw [← hag k c (by omega) hck hor]
  have hside : e.isTab c = false ∨
      (¬ (k ≤ it.f.glyph) ∧ ¬ (k < (forceBreak ci p (it.p + e.start) (forceGlyph ci.length it.f)).2)) := by
    by_cases ht : e.isTab c = true
    · right
      rcases hor with hor | hpx
      · rw [hor] at ht; cases ht
      · constructor
        · intro hx
          have := tabs_on_line hc hb hin hs ho hpx hp it hf hgs hck ht hkg (Or.inl hx)
          omega
        · intro hx
          have := tabs_on_line hc hb hin hs ho hpx hp it hf hgs hck ht hkg (Or.inr hx)
          omega
    · exact Or.inl (by simpa using ht)
  obtain ⟨mid, hm, _, _, hend⟩ := hf.mid
  rw [(adjustTabs_spec _ _ _ _ it.adjust).keeps hck (hside.imp id fun h => by omega)]
  have hmid : mid[k]? = ws[k]? := hm.keeps hck (hside.imp id fun h => by omega)
  rcases hend with ⟨_, he⟩ | ⟨v, he, _⟩
  · rw [he, hmid]
  · rw [← hmid]
    exact (tabAdjust_processed he).keeps hck (hside.imp id fun h => by omega)

/-- The widths with which each line is begun. -/
theorem breakLines_agrees {e : LineEnv} {ci : List Nat} {ws0 : List Int} {isStart isBreak : Nat → Prop} (hc : e.Codepoints isStart)
    (hb : e.Breaks isBreak) (hin : ∀ c ∈ ci, e.start ≤ c ∧ c < e.start + e.length ∧ isStart (c - e.start))
    (hs : ci.Pairwise (· ≤ ·)) (ho : e.TabsOnce isStart isBreak ci) {lines : List BrokenLine}
    (h : breakLines e ci e.length e.start ws0 = some lines) :
    ∀ l ∈ lines, ∃ ws, e.start ≤ l.first ∧ l.first < e.start + e.length ∧ breakLine e ci l.first ws = some l ∧
      ∀ (k c : Nat), l.first ≤ c → ci[k]? = some c → e.isTab c = false ∨ e.tabPixels = false → ws[k]? = ws0[k]? := by
  have hbi : e.BreaksInside := by
    intro i
    rcases hb.preceding i with ⟨h1, _⟩ | ⟨b, h1, h2, _⟩
    · omega
    · have := hb.inside b h2; omega
  intro l hl
  obtain ⟨ws, ⟨h1, h2⟩, h3, h4⟩ := breakLines_mem (e := e) (ci := ci) (fun ls ws => e.start ≤ ls ∧
      ∀ (k c : Nat), ls ≤ c → ci[k]? = some c → e.isTab c = false ∨ e.tabPixels = false → ws[k]? = ws0[k]?)
    (fun ls ws l hw hlt hx => ⟨by
      have := (breakLine_bounds hbi (fun c hc => ⟨(hin c hc).1, (hin c hc).2.1⟩) hlt hx).2.1; omega,
      breakLine_agrees hc hb hin hs ho hw.1 hlt hx hw.2⟩) _ _ _ _ ⟨Nat.le_refl _, fun _ _ _ _ _ => rfl⟩ h l hl
  exact ⟨ws, h1, h3, h4, h2⟩

end RichText
