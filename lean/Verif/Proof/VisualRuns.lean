import Verif.Spec.VisualRuns
import Verif.Proof.LineBreak
/-! Lemmas on visual runs (Model/LayoutBuilder.lean). -/
namespace RichText
variable {β φ : Type _}

/-! ### Consecutive ranges -/

theorem Consecutive.append {e m s : Nat} {l l' : List (Nat × Nat)} (h : Consecutive m s l)
    (h' : Consecutive e m l') : Consecutive e s (l ++ l') := by
  induction l generalizing s with
  | nil => simp only [Consecutive] at h; subst h; exact h'
  | cons a t ih => exact ⟨h.1, h.2.1, ih h.2.2⟩

theorem Consecutive.le {e s : Nat} {l : List (Nat × Nat)} (h : Consecutive e s l) : s ≤ e := by
  induction l generalizing s with
  | nil => simp only [Consecutive] at h; omega
  | cons a t ih => have := ih h.2.2; have := h.2.1; have := h.1; omega

theorem Consecutive.mem {e s : Nat} {l : List (Nat × Nat)} (h : Consecutive e s l) :
    ∀ r ∈ l, s ≤ r.1 ∧ r.1 < r.2 ∧ r.2 ≤ e := by
  induction l generalizing s with
  | nil => intro r hr; cases hr
  | cons a t ih =>
    intro r hr
    have h1 := h.1
    have h2 := h.2.1
    rcases List.mem_cons.1 hr with rfl | hr
    · exact ⟨by omega, h2, h.2.2.le⟩
    · obtain ⟨a1, a2, a3⟩ := ih h.2.2 r hr
      exact ⟨by omega, a2, a3⟩

/-- A chain of chains. -/
theorem Consecutive.flatMap {α γ : Type _} (range : α → Nat × Nat) (range' : γ → Nat × Nat) (f : α → List γ)
    {e s : Nat} {l : List α} (h : Consecutive e s (l.map range))
    (hf : ∀ a ∈ l, Consecutive (range a).2 (range a).1 ((f a).map range')) :
    Consecutive e s ((l.flatMap f).map range') := by
  induction l generalizing s with
  | nil => exact h
  | cons a t ih =>
    rw [List.flatMap_cons, List.map_append]
    have h1 : (range a).1 = s := h.1
    have := hf a (List.mem_cons_self ..)
    rw [h1] at this
    exact this.append (ih h.2.2 fun a ha => hf a (List.mem_cons_of_mem _ ha))

/-! ### Logical runs -/

theorem LogicalRuns.length_pos {s e n : Nat} {runs : List (LogicalRun φ)} (h : LogicalRuns s e n runs) :
    0 < runs.length := List.length_pos_iff.2 h.nonempty

theorem LogicalRuns.chars_mono {s e n : Nat} {runs : List (LogicalRun φ)} (h : LogicalRuns s e n runs)
    {i j : Nat} {r q : LogicalRun φ} (hij : i < j) (hi : runs[i]? = some r) (hj : runs[j]? = some q) :
    r.charEnd < q.charEnd := by
  obtain ⟨d, rfl⟩ := Nat.exists_eq_add_of_le hij
  clear hij
  induction d generalizing q with
  | zero =>
    have := h.chars _ q hj
    simpa [runStart, hi] using this
  | succ d ih =>
    have hlt : i + 1 + d < runs.length := by have := (List.getElem?_eq_some_iff.1 hj).1; omega
    have h1 := ih (List.getElem?_eq_getElem hlt)
    have h2 : runStart s runs (i + 1 + (d + 1)) < q.charEnd := h.chars _ q hj
    have h3 : runStart s runs (i + 1 + (d + 1)) = runs[i + 1 + d].charEnd := by
      show ((runs[i + 1 + d]?).map (·.charEnd)).getD s = _
      rw [List.getElem?_eq_getElem hlt]; rfl
    omega

theorem LogicalRuns.chars_le {s e n : Nat} {runs : List (LogicalRun φ)} (h : LogicalRuns s e n runs)
    {i j : Nat} {r q : LogicalRun φ} (hij : i ≤ j) (hi : runs[i]? = some r) (hj : runs[j]? = some q) :
    r.charEnd ≤ q.charEnd := by
  rcases Nat.lt_or_ge i j with h' | h'
  · exact Nat.le_of_lt (h.chars_mono h' hi hj)
  · obtain rfl : i = j := by omega
    rw [hi] at hj; cases hj; exact Nat.le_refl _

theorem LogicalRuns.last {s e n : Nat} {runs : List (LogicalRun φ)} (h : LogicalRuns s e n runs) :
    ∃ r : LogicalRun φ, runs[runs.length - 1]? = some r ∧ r.charEnd = e ∧ r.glyphEnd = n := by
  have h1 := h.lastChar
  have h2 := h.lastGlyph
  rw [List.getLast?_eq_getElem?] at h1 h2
  cases hr : runs[runs.length - 1]? with
  | none => simp [hr] at h1
  | some r =>
    simp only [hr, Option.map_some, Option.some.injEq] at h1 h2
    exact ⟨r, rfl, h1, h2⟩

theorem LogicalRuns.glyphs_le {s e n : Nat} {runs : List (LogicalRun φ)} (h : LogicalRuns s e n runs)
    {i j : Nat} {r q : LogicalRun φ} (hij : i ≤ j) (hi : runs[i]? = some r) (hj : runs[j]? = some q) :
    r.glyphEnd ≤ q.glyphEnd := by
  obtain ⟨d, rfl⟩ := Nat.exists_eq_add_of_le hij
  clear hij
  induction d generalizing q with
  | zero => rw [Nat.add_zero, hi] at hj; cases hj; exact Nat.le_refl _
  | succ d ih =>
    have hlt : i + d < runs.length := by have := (List.getElem?_eq_some_iff.1 hj).1; omega
    have h1 := ih (List.getElem?_eq_getElem hlt)
    have h2 := h.glyphs _ q hj
    have h3 : runFirstGlyph runs (i + (d + 1)) = runs[i + d].glyphEnd := by
      show ((runs[i + d]?).map (·.glyphEnd)).getD 0 = _
      rw [List.getElem?_eq_getElem hlt]; rfl
    omega

theorem LogicalRuns.le_last {s e n : Nat} {runs : List (LogicalRun φ)} (h : LogicalRuns s e n runs)
    {i : Nat} {r : LogicalRun φ} (hi : runs[i]? = some r) : r.charEnd ≤ e ∧ r.glyphEnd ≤ n := by
  obtain ⟨q, h1, h2, h3⟩ := h.last
  have hlt := (List.getElem?_eq_some_iff.1 hi).1
  have a := h.chars_le (show i ≤ runs.length - 1 by omega) hi h1
  have b := h.glyphs_le (show i ≤ runs.length - 1 by omega) hi h1
  omega

/-- The search for the logical run of a character. -/
theorem search_run {s e n : Nat} {runs : List (LogicalRun φ)} (h : LogicalRuns s e n runs) {x : Nat}
    (hx : x < e) :
    ∃ k r, binarySearch (fun i => (runs[i]?).map (fun q => decide (q.charEnd ≤ x))) 0 runs.length = some k ∧
      runs[k]? = some r ∧ x < r.charEnd ∧ (s ≤ x → runStart s runs k ≤ x) := by
  obtain ⟨k, h1, _, h3, h4, h5⟩ := binarySearch_spec
    (fun i => (runs[i]?).map (fun q => decide (q.charEnd ≤ x)))
    (fun i => ((runs[i]?).map (fun q => decide (q.charEnd ≤ x))).getD false) runs.length 0
    (by intro i _ hi; rw [List.getElem?_eq_getElem (show i < runs.length by omega)]; simp)
    (by
      intro i j _ hij hj hp
      have hi : i < runs.length := by omega
      have hj : j < runs.length := by omega
      simp only [List.getElem?_eq_getElem hi, List.getElem?_eq_getElem hj, Option.map_some, Option.getD_some,
        decide_eq_true_eq] at hp ⊢
      have := h.chars_le hij (List.getElem?_eq_getElem hi) (List.getElem?_eq_getElem hj)
      omega)
  have hlt : k < runs.length := by
    rcases Nat.lt_or_ge k runs.length with h' | h'
    · exact h'
    · obtain ⟨q, a1, a2, _⟩ := h.last
      have := h.length_pos
      have := h4 (runs.length - 1) (Nat.zero_le _) (by omega)
      simp only [a1, Option.map_some, Option.getD_some, decide_eq_true_eq] at this
      omega
  refine ⟨k, runs[k], h1, List.getElem?_eq_getElem hlt, ?_, ?_⟩
  · have := h5 k (Nat.le_refl _) (by omega)
    simpa [List.getElem?_eq_getElem hlt] using this
  · intro hs
    cases k with
    | zero => exact hs
    | succ k =>
      have := h4 k (Nat.zero_le _) (by omega)
      have hk : k < runs.length := by omega
      simp only [List.getElem?_eq_getElem hk, Option.map_some, Option.getD_some, decide_eq_true_eq] at this
      simpa [runStart, List.getElem?_eq_getElem hk] using this

/-! ### Pieces -/

theorem ltrPieces_spec {s e n : Nat} {runs : List (LogicalRun φ)} (h : LogicalRuns s e n runs) {runEnd : Nat}
    (he : runEnd < e) (d : Nat) : ∀ (k chr : Nat) (r : LogicalRun φ), runs.length - k = d → runs[k]? = some r →
      chr ≤ runEnd → chr < r.charEnd → runStart s runs k ≤ chr →
      ∃ ps, ltrPieces runs runEnd k chr = some ps ∧ Consecutive (runEnd + 1) chr (ps.map VisualPiece.range) ∧
        ∀ p ∈ ps, p.rtl = false ∧ p.Inside s runs := by
  induction d with
  | zero =>
    intro k chr r hd hr _ _ _
    have := (List.getElem?_eq_some_iff.1 hr).1; omega
  | succ d ih =>
    intro k chr r hd hr hc hcr hst
    unfold ltrPieces
    split
    · rename_i hn; rw [hr] at hn; cases hn
    · rename_i r' hr'
      rw [hr] at hr'; cases hr'
      by_cases hlt : runEnd < r.charEnd
      · rw [if_pos hlt]
        refine ⟨_, rfl, ⟨rfl, by simp only [VisualPiece.range]; omega, rfl⟩, ?_⟩
        intro p hp
        rw [List.mem_singleton] at hp; subst hp
        exact ⟨rfl, hc, hst, r, hr, hlt⟩
      · rw [if_neg hlt]
        have hk1 : k + 1 < runs.length := by
          obtain ⟨q, a1, a2, _⟩ := h.last
          have hkl := (List.getElem?_eq_some_iff.1 hr).1
          rcases Nat.lt_or_ge (k + 1) runs.length with h' | h'
          · exact h'
          · rw [show runs.length - 1 = k by omega, hr] at a1; cases a1; omega
        have hst' : runStart s runs (k + 1) = r.charEnd := by simp [runStart, hr]
        have hnext := h.chars (k + 1) _ (List.getElem?_eq_getElem hk1)
        obtain ⟨ps, h1, h2, h3⟩ := ih (k + 1) r.charEnd _ (by omega) (List.getElem?_eq_getElem hk1) (by omega)
          (by rw [hst'] at hnext; exact hnext) (by rw [hst']; exact Nat.le_refl _)
        refine ⟨_, by rw [h1]; rfl, ?_, ?_⟩
        · simp only [List.map_cons]
          refine ⟨rfl, by simp only [VisualPiece.range]; omega, ?_⟩
          simp only [VisualPiece.range]
          rw [show r.charEnd - 1 + 1 = r.charEnd by omega]
          exact h2
        · intro p hp
          rcases List.mem_cons.1 hp with rfl | hp
          · exact ⟨rfl, by simp only; omega, hst, r, hr, by simp only; omega⟩
          · exact h3 p hp

theorem rtlPieces_spec {s e n : Nat} {runs : List (LogicalRun φ)} (h : LogicalRuns s e n runs) {first : Nat}
    (hs : s ≤ first) : ∀ (k chr : Nat) (r : LogicalRun φ), runs[k]? = some r →
      first ≤ chr → chr < r.charEnd → runStart s runs k ≤ chr →
      ∃ ps, rtlPieces runs first k chr = some ps ∧ Consecutive (chr + 1) first (ps.reverse.map VisualPiece.range) ∧
        ∀ p ∈ ps, p.rtl = true ∧ p.Inside s runs := by
  intro k
  induction k with
  | zero =>
    intro chr r hr hc hcr _
    refine ⟨[⟨0, first, chr, true⟩], by simp [rtlPieces, hr], ⟨rfl, by simp only [VisualPiece.range]; omega, rfl⟩, ?_⟩
    intro p hp
    rw [List.mem_singleton] at hp; subst hp
    exact ⟨rfl, hc, hs, r, hr, hcr⟩
  | succ k ih =>
    intro chr r hr hc hcr hst
    have hk : k < runs.length := by have := (List.getElem?_eq_some_iff.1 hr).1; omega
    have hq := List.getElem?_eq_getElem hk
    have hst' : runStart s runs (k + 1) = runs[k].charEnd := by simp [runStart, hq]
    unfold rtlPieces
    simp only [hr, hq]
    by_cases hle : runs[k].charEnd ≤ first
    · rw [if_pos hle]
      refine ⟨_, rfl, ⟨rfl, by simp only [VisualPiece.range]; omega, rfl⟩, ?_⟩
      intro p hp
      rw [List.mem_singleton] at hp; subst hp
      exact ⟨rfl, hc, by simp only; omega, r, hr, hcr⟩
    · rw [if_neg hle]
      have hpos := h.chars k _ hq
      obtain ⟨ps, h1, h2, h3⟩ := ih (runs[k].charEnd - 1) _ hq (by omega) (by omega) (by omega)
      refine ⟨_, by rw [h1]; rfl, ?_, ?_⟩
      · rw [List.reverse_cons, List.map_append]
        rw [show runs[k].charEnd - 1 + 1 = runs[k].charEnd by omega] at h2
        exact h2.append ⟨rfl, by simp only [VisualPiece.range]; omega, rfl⟩
      · intro p hp
        rcases List.mem_cons.1 hp with rfl | hp
        · exact ⟨rfl, by simp only; omega, by simp only; omega, r, hr, hcr⟩
        · exact h3 p hp

/-- The pieces of one bidi run. -/
theorem bidiPieces_spec {s e n : Nat} {runs : List (LogicalRun φ)} (h : LogicalRuns s e n runs) {r : BidiRun}
    (hl : 0 < r.length) (hs : s ≤ r.offset) (he : r.offset + r.length ≤ e) :
    ∃ ps, bidiPieces runs r = some ps ∧
      Consecutive (r.offset + r.length) r.offset ((revIf r.rtl ps).map VisualPiece.range) ∧
      ∀ p ∈ ps, p.rtl = r.rtl ∧ p.Inside s runs := by
  unfold bidiPieces
  by_cases hlv : r.level % 2 = 0
  · obtain ⟨k, q, h1, h2, h3, h4⟩ := search_run h (x := r.offset) (by omega)
    obtain ⟨ps, a1, a2, a3⟩ := ltrPieces_spec h (runEnd := r.offset + r.length - 1) (by omega) _ k r.offset q rfl h2
      (by omega) h3 (h4 hs)
    have hrtl : r.rtl = false := by simp [BidiRun.rtl, hlv]
    simp only [hlv, if_true, h1, Option.bind_some]
    rw [show r.offset + r.length - 1 + 1 = r.offset + r.length by omega] at a2
    exact ⟨ps, a1, by rw [hrtl]; exact a2, by rw [hrtl]; exact a3⟩
  · obtain ⟨k, q, h1, h2, h3, h4⟩ := search_run h (x := r.offset + r.length - 1) (by omega)
    obtain ⟨ps, a1, a2, a3⟩ := rtlPieces_spec h hs k (r.offset + r.length - 1) q h2 (by omega) h3 (h4 (by omega))
    have hrtl : r.rtl = true := by simp only [BidiRun.rtl, decide_eq_true_eq]; omega
    simp only [hlv, if_false, h1, Option.bind_some]
    rw [show r.offset + r.length - 1 + 1 = r.offset + r.length by omega] at a2
    exact ⟨ps, a1, by rw [hrtl]; exact a2, by rw [hrtl]; exact a3⟩

theorem revIf_perm {α : Type _} (b : Bool) (l : List α) : (revIf b l).Perm l := by
  unfold revIf; split
  · exact List.reverse_perm l
  · exact List.Perm.refl _

theorem linePieces_eq {runs : List (LogicalRun φ)} (f : BidiRun → List VisualPiece) :
    ∀ bs : List BidiRun, (∀ r ∈ bs, bidiPieces runs r = some (f r)) → linePieces runs bs = some (bs.flatMap f)
  | [], _ => rfl
  | r :: t, h => by
    unfold linePieces
    rw [h r (List.mem_cons_self ..), linePieces_eq f t fun r hr => h r (List.mem_cons_of_mem _ hr)]
    simp

/-- The pieces of a line. -/
theorem linePieces_spec {s e n : Nat} {runs : List (LogicalRun φ)} (h : LogicalRuns s e n runs) {ls le : Nat}
    (hs : s ≤ ls) (he : le ≤ e) {bs : List BidiRun} (hb : Partition BidiRun.range ls le bs) :
    ∃ f : BidiRun → List VisualPiece, (∀ r ∈ bs, bidiPieces runs r = some (f r) ∧
        Consecutive (r.offset + r.length) r.offset ((revIf r.rtl (f r)).map VisualPiece.range) ∧
        ∀ p ∈ f r, p.rtl = r.rtl ∧ p.Inside s runs) ∧
      linePieces runs bs = some (bs.flatMap f) ∧ Partition VisualPiece.range ls le (bs.flatMap f) := by
  obtain ⟨bs', hperm, hcons⟩ := hb
  have hex : ∀ r ∈ bs, ∃ ps, bidiPieces runs r = some ps ∧
      Consecutive (r.offset + r.length) r.offset ((revIf r.rtl ps).map VisualPiece.range) ∧
      ∀ p ∈ ps, p.rtl = r.rtl ∧ p.Inside s runs := by
    intro r hr
    have hm : r.range ∈ bs'.map BidiRun.range := List.mem_map_of_mem (hperm.mem_iff.2 hr)
    obtain ⟨a1, a2, a3⟩ := hcons.mem _ hm
    simp only [BidiRun.range] at a1 a2 a3
    exact bidiPieces_spec h (by omega) (by omega) (by omega)
  let f : BidiRun → List VisualPiece := fun r => (bidiPieces runs r).getD []
  have hf : ∀ r ∈ bs, bidiPieces runs r = some (f r) ∧
      Consecutive (r.offset + r.length) r.offset ((revIf r.rtl (f r)).map VisualPiece.range) ∧
      ∀ p ∈ f r, p.rtl = r.rtl ∧ p.Inside s runs := by
    intro r hr
    obtain ⟨ps, h1, h2, h3⟩ := hex r hr
    have : f r = ps := by simp [f, h1]
    rw [this]; exact ⟨h1, h2, h3⟩
  refine ⟨f, hf, linePieces_eq f bs fun r hr => (hf r hr).1, bs'.flatMap fun r => revIf r.rtl (f r), ?_, ?_⟩
  · have h1 : (bs'.flatMap fun r => revIf r.rtl (f r)).Perm (bs'.flatMap f) := by
      clear hcons hperm
      induction bs' with
      | nil => exact List.Perm.refl _
      | cons a t ih => simp only [List.flatMap_cons]; exact (revIf_perm _ _).append ih
    exact h1.trans (hperm.flatMap_right f)
  · refine Consecutive.flatMap BidiRun.range VisualPiece.range _ hcons fun r hr => ?_
    exact (hf r (hperm.mem_iff.1 hr)).2.1

/-! ### Glyphs of a visual run -/

/-- A binary search in a sorted part of the character indices. -/
theorem search_part {ci : List Nat} (hs : ci.Pairwise (· ≤ ·)) (p : Nat → Bool)
    (hp : ∀ c c', c ≤ c' → p c' = true → p c = true) {first count : Nat} (hl : first + count ≤ ci.length) :
    ∃ g, binarySearch (fun i => (ci[i]?).map p) first count = some g ∧ first ≤ g ∧ g ≤ first + count ∧
      ∀ (k c : Nat), ci[k]? = some c → first ≤ k → k < first + count → (p c = true ↔ k < g) := by
  obtain ⟨g, h1, h2, h3, h4, h5⟩ := binarySearch_spec (fun i => (ci[i]?).map p)
    (fun i => p (ci.getD i 0)) count first
    (by intro i _ hi
        rw [List.getElem?_eq_getElem (show i < ci.length by omega)]
        simp [List.getD, List.getElem?_eq_getElem (show i < ci.length by omega)])
    (by
      intro i j _ hij hj h
      have hi : i < ci.length := by omega
      have hj : j < ci.length := by omega
      simp only [List.getD, List.getElem?_eq_getElem hi, List.getElem?_eq_getElem hj, Option.getD_some] at h ⊢
      rcases Nat.lt_or_ge i j with h' | h'
      · exact hp _ _ (List.pairwise_iff_getElem.1 hs i j hi hj h') h
      · have : i = j := by omega
        subst this; exact h)
  refine ⟨g, h1, h2, h3, ?_⟩
  intro k c hk hk1 hk2
  constructor
  · intro hc
    rcases Nat.lt_or_ge k g with h | h
    · exact h
    · have := h5 k h hk2
      simp only [List.getD, hk, Option.getD_some] at this
      rw [this] at hc; cases hc
  · intro h
    have := h4 k hk1 h
    simpa [List.getD, hk] using this

/-- Each glyph is in some logical run. -/
theorem glyph_run {s e : Nat} {b : Shaped φ} (h : ShapedOK s e b) {i : Nat} (hi : i < b.glyphs.length) :
    ∃ (k : Nat) (r : LogicalRun φ), b.runs[k]? = some r ∧ runFirstGlyph b.runs k ≤ i ∧ i < r.glyphEnd := by
  have key : ∀ (k : Nat) (r : LogicalRun φ), b.runs[k]? = some r → i < r.glyphEnd →
      ∃ (k : Nat) (r : LogicalRun φ), b.runs[k]? = some r ∧ runFirstGlyph b.runs k ≤ i ∧ i < r.glyphEnd := by
    intro k
    induction k with
    | zero => intro r hr hlt; exact ⟨0, r, hr, Nat.zero_le _, hlt⟩
    | succ k ih =>
      intro r hr hlt
      have hk : k < b.runs.length := by have := (List.getElem?_eq_some_iff.1 hr).1; omega
      have hq := List.getElem?_eq_getElem hk
      by_cases hge : b.runs[k].glyphEnd ≤ i
      · exact ⟨k + 1, r, hr, by simpa [runFirstGlyph, hq] using hge, hlt⟩
      · exact ih _ hq (by omega)
  obtain ⟨r, h1, _, h3⟩ := h.runs.last
  exact key _ r h1 (by omega)

theorem pieceGlyphs_spec {s e : Nat} {b : Shaped φ} (h : ShapedOK s e b) {p : VisualPiece}
    (hp : p.Inside s b.runs) :
    ∃ vf vl, pieceGlyphs b p = some (vf, vl) ∧ vf ≤ vl ∧ vl ≤ b.glyphs.length ∧
      ∀ i, b.Has p i ↔ vf ≤ i ∧ i < vl := by
  obtain ⟨hfl, hst, r, hr, hlast⟩ := hp
  have hgl := h.runs.glyphs _ r hr
  obtain ⟨hce, hge⟩ := h.runs.le_last hr
  have hlf : logicalFirstGlyph b.runs p.run = some (runFirstGlyph b.runs p.run) := by
    cases hk : p.run with
    | zero => rfl
    | succ k =>
      have hk' : k < b.runs.length := by have := (List.getElem?_eq_some_iff.1 hr).1; omega
      simp [logicalFirstGlyph, runFirstGlyph, List.getElem?_eq_getElem hk']
  have hci := h.charIdx
  obtain ⟨vf, a1, a2, a3, a4⟩ := search_part h.sorted (fun c => decide (c < p.first))
    (by intro c c' h1 h2; simp only [decide_eq_true_eq] at h2 ⊢; omega)
    (first := runFirstGlyph b.runs p.run) (count := r.glyphEnd - runFirstGlyph b.runs p.run) (by omega)
  obtain ⟨vl, b1, b2, b3, b4⟩ := search_part h.sorted (fun c => decide (c ≤ p.last))
    (by intro c c' h1 h2; simp only [decide_eq_true_eq] at h2 ⊢; omega)
    (first := vf) (count := r.glyphEnd - vf) (by omega)
  refine ⟨vf, vl, ?_, b2, by omega, ?_⟩
  · unfold pieceGlyphs
    simp only [hlf, hr, a1, Option.bind_some, b1, Option.map_some]
  · intro i
    constructor
    · rintro ⟨c, hc, hc1, hc2⟩
      have hil : i < b.glyphs.length := by have := (List.getElem?_eq_some_iff.1 hc).1; omega
      -- the glyph lies in the logical run of the piece
      obtain ⟨k, q, hq, hk1, hk2⟩ := glyph_run h hil
      obtain ⟨i1, i2⟩ := h.inside k q i c hq hk1 hk2 hc
      have hk : k = p.run := by
        rcases Nat.lt_trichotomy k p.run with hlt | heq | hgt
        · exfalso
          cases hpr : p.run with
          | zero => omega
          | succ m =>
            have hm : m < b.runs.length := by have := (List.getElem?_eq_some_iff.1 hr).1; omega
            have hle := h.runs.chars_le (show k ≤ m by omega) hq (List.getElem?_eq_getElem hm)
            rw [hpr] at hst
            have : runStart s b.runs (m + 1) = b.runs[m].charEnd := by
              simp [runStart, List.getElem?_eq_getElem hm]
            omega
        · exact heq
        · exfalso
          cases k with
          | zero => omega
          | succ m =>
            have hm : m < b.runs.length := by have := (List.getElem?_eq_some_iff.1 hq).1; omega
            have hle := h.runs.chars_le (show p.run ≤ m by omega) hr (List.getElem?_eq_getElem hm)
            have : runStart s b.runs (m + 1) = b.runs[m].charEnd := by
              simp [runStart, List.getElem?_eq_getElem hm]
            omega
      subst hk
      rw [hr] at hq; cases hq
      have h1 : vf ≤ i := by
        rcases Nat.lt_or_ge i vf with hlt | hge
        · have := (a4 i c hc hk1 (by omega)).2 hlt
          simp only [decide_eq_true_eq] at this; omega
        · exact hge
      exact ⟨h1, (b4 i c hc h1 (by omega)).1 (by simpa using hc2)⟩
    · rintro ⟨h1, h2⟩
      have hil : i < b.charIdx.length := by omega
      have hc := List.getElem?_eq_getElem hil
      refine ⟨b.charIdx[i], hc, ?_, ?_⟩
      · rcases Nat.lt_or_ge b.charIdx[i] p.first with hlt | hge
        · have := (a4 i _ hc (by omega) (by omega)).1 (by simpa using hlt); omega
        · exact hge
      · have := (b4 i _ hc h1 (by omega)).2 h2
        simpa using this

theorem sumAt_append (ws : List Int) (a b : List Nat) : sumAt ws (a ++ b) = sumAt ws a + sumAt ws b := by
  simp [sumAt]

theorem emitGlyphs_spec {b : Shaped φ} {ws : List Int} {vertical : Bool} :
    ∀ (idx : List Nat) (w : Int),
      (∀ i ∈ idx, i < b.glyphs.length ∧ i < b.charIdx.length ∧ i < b.secondary.length ∧ i < ws.length) →
      ∃ gs, emitGlyphs b ws vertical idx w = some (gs, w + sumAt ws idx) ∧ gs.length = idx.length ∧
        ∀ (j i : Nat), idx[j]? = some i → ∃ g c s,
          b.glyphs[i]? = some g ∧ b.charIdx[i]? = some c ∧ b.secondary[i]? = some s ∧
          gs[j]? = some (⟨g, c, (placeAt vertical (w + sumAt ws (idx.take j)) s).1,
            (placeAt vertical (w + sumAt ws (idx.take j)) s).2⟩ : GlyphSpec)
  | [], w, _ => ⟨[], by simp [emitGlyphs, sumAt], rfl, fun j i h => by simp at h⟩
  | i :: t, w, h => by
    obtain ⟨h1, h2, h3, h4⟩ := h i (List.mem_cons_self ..)
    obtain ⟨gs, a1, a2, a3⟩ := emitGlyphs_spec (b := b) (ws := ws) (vertical := vertical) t (w + ws[i])
      fun i hi => h i (List.mem_cons_of_mem _ hi)
    have hd : ws.getD i 0 = ws[i] := by simp [List.getD, List.getElem?_eq_getElem h4]
    have hcons : ∀ l, sumAt ws (i :: l) = ws[i] + sumAt ws l := by intro l; simp only [sumAt, List.map_cons, List.sum_cons, hd]
    refine ⟨⟨b.glyphs[i], b.charIdx[i], (placeAt vertical w b.secondary[i]).1,
      (placeAt vertical w b.secondary[i]).2⟩ :: gs, ?_, ?_, ?_⟩
    · unfold emitGlyphs
      simp only [List.getElem?_eq_getElem h1, List.getElem?_eq_getElem h2, List.getElem?_eq_getElem h3,
        List.getElem?_eq_getElem h4, a1, Option.map_some]
      rw [hcons, ← Int.add_assoc]
    · simp [a2]
    · intro j k hj
      cases j with
      | zero =>
        simp only [List.getElem?_cons_zero, Option.some.injEq] at hj
        subst hj
        exact ⟨_, _, _, List.getElem?_eq_getElem h1, List.getElem?_eq_getElem h2, List.getElem?_eq_getElem h3,
          by simp [sumAt]⟩
      | succ j =>
        rw [List.getElem?_cons_succ] at hj
        obtain ⟨g, c, s, b1, b2, b3, b4⟩ := a3 j k hj
        refine ⟨g, c, s, b1, b2, b3, ?_⟩
        rw [List.getElem?_cons_succ, b4, List.take_succ_cons, hcons, ← Int.add_assoc]

theorem visualRun_spec {s e : Nat} {b : Shaped φ} (h : ShapedOK s e b) {ws : List Int}
    (hw : ws.length = b.glyphs.length) (vertical : Bool) {p : VisualPiece} (hp : p.Inside s b.runs)
    (before : List Nat) :
    ∃ op idx, visualRun b ws vertical p (sumAt ws before) = some (op, sumAt ws (before ++ idx)) ∧
      b.Lists p idx ∧ RunOp b ws vertical p before idx op := by
  obtain ⟨vf, vl, h1, h2, h3, h4⟩ := pieceGlyphs_spec h hp
  obtain ⟨_, _, r, hr, _⟩ := hp
  have hmem : ∀ i, i ∈ revIf p.rtl (List.range' vf (vl - vf)) ↔ vf ≤ i ∧ i < vl := by
    intro i
    rw [(revIf_perm _ _).mem_iff, List.mem_range'_1]
    omega
  have hci := h.charIdx
  have hse := h.secondary
  obtain ⟨gs, a1, a2, a3⟩ := emitGlyphs_spec (b := b) (ws := ws) (vertical := vertical)
    (revIf p.rtl (List.range' vf (vl - vf))) (sumAt ws before)
    (fun i hi => by have := (hmem i).1 hi; omega)
  have hsec : b.secondary[vl]? = some b.secondary[vl] := List.getElem?_eq_getElem (by omega)
  refine ⟨_, revIf p.rtl (List.range' vf (vl - vf)), ?_, ⟨?_, ?_⟩, ⟨r, gs, b.secondary[vl], hr, rfl, a2, ?_, ?_⟩⟩
  · unfold visualRun
    simp only [h1, hr, a1, hsec, sumAt_append]
  · intro i; rw [hmem, h4]
  · unfold revIf
    split
    · rw [List.pairwise_reverse]; exact List.pairwise_lt_range'
    · exact List.pairwise_lt_range'
  · refine ⟨vl, hsec, fun i hi => ((hmem i).1 hi).2, ?_⟩
    by_cases hv : vf < vl
    · exact Or.inr ⟨vl - 1, (hmem _).2 ⟨by omega, by omega⟩, by omega⟩
    · left
      have : vl - vf = 0 := by omega
      rw [this]; cases p.rtl <;> rfl
  · intro j i hj
    obtain ⟨g, c, t, c1, c2, c3, c4⟩ := a3 j i hj
    exact ⟨g, c, t, c1, c2, c3, by rw [c4, sumAt_append]⟩

theorem visualRuns_spec {s e : Nat} {b : Shaped φ} (h : ShapedOK s e b) {ws : List Int}
    (hw : ws.length = b.glyphs.length) (vertical : Bool) :
    ∀ (ps : List VisualPiece) (before : List Nat), (∀ p ∈ ps, p.Inside s b.runs) →
      ∃ ops idx, visualRuns b ws vertical ps (sumAt ws before) = some ops ∧ RunOps b ws vertical before ps idx ops
  | [], _, _ => ⟨[], [], rfl, trivial⟩
  | p :: t, before, hp => by
    obtain ⟨op, i, h1, h2, h3⟩ := visualRun_spec h hw vertical (hp p (List.mem_cons_self ..)) before
    obtain ⟨ops, is, h4, h5⟩ := visualRuns_spec h hw vertical t (before ++ i) fun p hp' => hp p (List.mem_cons_of_mem _ hp')
    refine ⟨op :: ops, i :: is, ?_, h2, h3, h5⟩
    unfold visualRuns
    simp only [h1, h4, Option.map_some]

theorem maxMetrics_defined {s : Nat} {runs : List (LogicalRun φ)} (metrics : φ → Metrics) :
    ∀ (ps : List VisualPiece) (m : Metrics), (∀ p ∈ ps, p.Inside s runs) → ∃ m', maxMetrics runs metrics ps m = some m'
  | [], m, _ => ⟨m, rfl⟩
  | p :: t, m, h => by
    obtain ⟨_, _, r, hr, _⟩ := h p (List.mem_cons_self ..)
    unfold maxMetrics
    simp only [hr]
    exact maxMetrics_defined metrics t _ fun p hp => h p (List.mem_cons_of_mem _ hp)

/-- One line. -/
theorem lineOps_spec {e : ParaEnv β φ} {b : Shaped φ} {s stop : Nat} (h : ShapedOK s stop b) {l : BrokenLine}
    (hw : l.widths.length = b.glyphs.length) (hs : s ≤ l.first) (he : l.stop ≤ stop)
    (hb : Partition BidiRun.range l.first l.stop (e.bidi l.first l.stop)) :
    ∃ ops ps idx m, lineOps e b l = some (ops ++ [.line (m.ascent - m.descent) m.ascent], ps) ∧
      maxMetrics b.runs e.metrics ps ⟨0, 0⟩ = some m ∧
      linePieces b.runs (e.bidi l.first l.stop) = some ps ∧
      Partition VisualPiece.range l.first l.stop ps ∧ (∀ p ∈ ps, p.Inside s b.runs) ∧
      RunOps b l.widths e.vertical [] ps idx ops := by
  obtain ⟨f, h1, h2, h3⟩ := linePieces_spec h.runs hs he hb
  have hin : ∀ p ∈ (e.bidi l.first l.stop).flatMap f, p.Inside s b.runs := by
    intro p hp
    obtain ⟨r, hr, hpr⟩ := List.mem_flatMap.1 hp
    exact ((h1 r hr).2.2 p hpr).2
  obtain ⟨ops, idx, h4, h5⟩ := visualRuns_spec h hw e.vertical _ [] hin
  obtain ⟨m, h6⟩ := maxMetrics_defined e.metrics _ ⟨0, 0⟩ hin
  refine ⟨ops, _, idx, m, ?_, h6, h2, h3, hin, h5⟩
  unfold lineOps
  have : sumAt l.widths [] = 0 := rfl
  rw [this] at h4
  simp only [h2, Option.bind_some, h4, h6, Option.map_some]

end RichText
